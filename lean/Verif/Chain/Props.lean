import Verif.Chain.Steps
import Verif.Resolver.DepLookupProps
import Verif.Resolver.VersionProps
/-
Chains of registries: an attribute offered by a registry is the one its declaring registry offers (C176), under the URL of
that registry (C177); a registry offers its own definitions whatever its dependencies offer (C178); and it offers nothing
that its files do not mention (C179).
-/
namespace Verif.Chain
open Verif.Util Verif.Resolver Verif.Pipeline Verif.Imports

/-! ### Specification -/

/-- `Below m n`: `m` is the registry `n`, or one of those it was resolved with, directly or not. -/
inductive Below (m : Node) : Node → Prop
  | self : Below m m
  | dep (url : SchemaUrl) (inc : Bool) (specs : List UGroup) (blocks : List Block) (deps cache : List Node)
      (listed : List SchemaUrl) (out : Output) (d : Node) : d ∈ deps → Below m d →
      Below m (.files url inc specs blocks deps cache listed out)
  | cached (url : SchemaUrl) (inc : Bool) (specs : List UGroup) (blocks : List Block) (deps cache : List Node)
      (listed : List SchemaUrl) (out : Output) (d : Node) : d ∈ cache → Below m d →
      Below m (.files url inc specs blocks deps cache listed out)

/-- The files define the attribute `k`: with an `id` attribute (under the prefix of its group), or with a `prefix: true`
reference in a group or in a group it inherits from. -/
def Defines (specs : List UGroup) (k : String) : Prop :=
  (∃ g ∈ specs, ∃ a ∈ g.attrs, ∃ i f, a.spec = .id i f ∧ k = prefixed g.pfx i) ∨
  (∃ g ∈ specs, ∃ h ∈ specs, ∃ a ∈ h.attrs, ∃ r f, a.spec = .ref r f ∧ f.prefixFlag = true ∧ k = g.pfx ++ "." ++ r)

/-- The files refer to the attribute `k`. -/
def Refers (specs : List UGroup) (k : String) : Prop := ∃ g ∈ specs, ∃ a ∈ g.attrs, ∃ f, a.spec = .ref k f

/-- The registry itself declares the attribute `k`. A published schema declares those it lists. -/
def Declares : Node → String → Prop
  | .files _ _ specs _ _ _ _ _, k => Defines specs k
  | .published s, k => ∃ i ∈ s.attributes, ∃ a, s.catalog[i]? = some a ∧ a.key = k

/-- The registry was resolved from files. -/
def FromFiles : Node → Prop
  | .files .. => True
  | .published _ => False

/-- Nothing is imported. -/
def ImportsNothing : Node → Prop
  | .files _ inc _ blocks _ _ _ _ => inc = false ∧ blocks = []
  | .published _ => True

/-- No group of the files has both `extends` and `include_groups`. -/
def NoMix (specs : List UGroup) : Prop := ∀ g ∈ specs, g.ext = none ∨ g.includes = []

/-- No group id of the files looks like the name given to attributes of dependencies. -/
def PlainIds (specs : List UGroup) : Prop := ∀ g ∈ specs, ∀ n, g.id ≠ "v2_dependency." ++ n

/-- What holds of the files of a registry. -/
def OfFiles (P : List UGroup → Prop) : Node → Prop
  | .files _ _ specs _ _ _ _ _ => P specs
  | .published _ => True

/-- Of one registry no two versions are around. -/
def OneVersion (n : Node) : Prop :=
  ∀ u v, u ∈ n.url :: n.schema.deps → v ∈ n.url :: n.schema.deps → u.name = v.name → u = v

/-! ### What the files leave -/

theorem below_trans {a b c : Node} (h1 : Below a b) (h2 : Below b c) : Below a c := by
  induction h2 with
  | self => exact h1
  | dep url inc specs blocks deps cache listed out d hd _ ih => exact .dep _ _ _ _ _ _ _ _ d hd ih
  | cached url inc specs blocks deps cache listed out d hd _ ih => exact .cached _ _ _ _ _ _ _ _ d hd ih

/-- What is true of an attribute that inheritance leaves. -/
def Left (specs : List UGroup) : AttrSpec → Prop
  | .id i _ => ∃ g ∈ specs, ∃ a ∈ g.attrs, ∃ j f, a.spec = .id j f ∧ i = prefixed g.pfx j
  | .ref r f => Refers specs r ∧
      (f.prefixFlag = true → ∃ h ∈ specs, ∃ a ∈ h.attrs, ∃ f, a.spec = .ref r f ∧ f.prefixFlag = true)

theorem left_closed (specs : List UGroup) : Closed (Left specs) := by
  intro s old hs hk h1 h2
  cases s with
  | id i f => cases hs
  | ref r f =>
    cases old with
    | id i p =>
      simp only [AttrSpec.key] at hk
      subst hk
      exact h2
    | ref r' p =>
      simp only [AttrSpec.key] at hk
      subst hk
      refine ⟨h1.1, ?_⟩
      simp only [pfx_val, Bool.or_eq_true]
      rintro (h | h)
      · exact h1.2 h
      · exact h2.2 h

/-- The attributes of the groups of a dependency are definitions, with an origin. -/
theorem depGroups_good (D : AttrSpec → Prop) (d : Schema) (x : String) (s : Summary) (h : d.asDep.group x = some s) :
    GoodAttrs D s.attrs := by
  have key : ∀ (l : List (Attr × SchemaUrl)), GoodAttrs D (l.map (fun p => { spec := specOf p.1, origin := some p.2 })) := by
    intro l
    refine ⟨?_, ?_⟩
    · intro a ha
      obtain ⟨p, _, rfl⟩ := List.mem_map.1 ha
      rintro (h | h) <;> cases h
    · rw [List.pairwise_map]
      exact List.pairwise_of_forall (fun a b _ h => by cases h)
  cases d with
  | v1 s1 =>
    change lookupGroup1 s1 x = some s at h
    unfold lookupGroup1 at h
    cases hf : s1.groups.find? (fun g => decide (g.grp.id = x)) with
    | none => rw [hf] at h; cases h
    | some g =>
      rw [hf] at h
      simp only [Option.map_some, Option.some.injEq] at h
      subst h
      have := key ((attrsOf s1 g).map (fun a => (a, findSource s1 a.name)))
      rw [List.map_map] at this
      exact this
  | v2 s2 =>
    change lookupGroup2 s2 x = some s at h
    unfold lookupGroup2 at h
    split at h
    · injection h with h; subst h; exact key _
    · split at h
      · injection h with h; subst h; exact key _
      · split at h
        · injection h with h; subst h; exact key _
        · split at h
          · injection h with h; subst h; exact key _
          · cases h

theorem prepared_good (D : AttrSpec → Prop) (specs : List UGroup)
    (h : ∀ g ∈ specs, ∀ a ∈ g.attrs, (∀ i f, a.spec = .id i f → D (.id (prefixed g.pfx i) f)) ∧
      ∀ r f, a.spec = .ref r f → D (.ref r f)) : ∀ g ∈ prepared specs, GoodAttrs D g.attrs := by
  intro g hg
  obtain ⟨g0, hg0, rfl⟩ := List.mem_map.1 hg
  dsimp only
  refine ⟨?_, ?_⟩
  · intro a ha
    obtain ⟨b, hb, rfl⟩ := List.mem_map.1 ha
    obtain ⟨h1, h2⟩ := h g0 hg0 b hb
    intro _
    cases hs : b.spec with
    | id i f => exact h1 i f hs
    | ref r f => exact h2 r f hs
  · rw [List.pairwise_map]
    refine List.pairwise_of_forall (fun a b _ _ => ?_)
    cases a.spec <;> rfl

theorem left_prepared (specs : List UGroup) : ∀ g ∈ prepared specs, GoodAttrs (Left specs) g.attrs :=
  prepared_good _ specs (fun g hg a ha => ⟨fun i f hs => ⟨g, hg, a, ha, i, f, hs, rfl⟩,
    fun r f hs => ⟨⟨g, hg, a, ha, f, hs⟩, fun hp => ⟨g, hg, a, ha, f, hs, hp⟩⟩⟩)

theorem noMix_prepared {specs : List UGroup} (h : NoMix specs) : ∀ g ∈ prepared specs, g.ext = none ∨ g.includes = [] := by
  intro g hg
  obtain ⟨g0, hg0, rfl⟩ := List.mem_map.1 hg
  exact h g0 hg0

theorem extends_good {D : AttrSpec → Prop} (hD : Closed D) {le : Attr → Attr → Bool} {glob : String → String → Bool} {deps cache : List Node}
    {specs : List UGroup} {out : Output} (hm : NoMix specs) (hp : ∀ g ∈ prepared specs, GoodAttrs D g.attrs)
    (F : Facts le (envOf glob deps cache) specs out) : ∀ c ∈ F.cs, GoodGroup D (prepared specs) c := by
  refine resolveExtends_good hD ?_ (noMix_prepared hm) hp F.extends_
  intro dl hdl x s hx
  obtain ⟨d, hd, rfl⟩ := List.mem_map.1 hdl
  obtain ⟨n, _, rfl⟩ := List.mem_map.1 hd
  exact depGroups_good D n.schema x s hx

/-- A root that comes from a dependency and is a definition was looked up for a reference. -/
def DepsReferred (specs : List UGroup) (st : RState) : Prop :=
  ∀ k r u, aget k st.roots = some r → r.isDef = true → r.src = .dep u → Refers specs k

theorem depsReferred_step (specs : List UGroup) (w : Resolver.World) (g : RGrp) (st : RState) (a : UAttr)
    (ha : GoodSpec (Left specs) a.spec a.origin) (h : DepsReferred specs st) :
    DepsReferred specs (resolveAttr w g st a).1 := by
  obtain ⟨s, o⟩ := a
  have use : ∀ (roots : List (String × Rooted)) r f root, DepsReferred specs { st with roots := roots } →
      DepsReferred specs (useRoot g { st with roots := roots } r f root).1 := by
    intro roots r f root hq
    unfold useRoot
    split
    · exact hq
    · dsimp only
      split
      · intro k x u hk hd hs
        dsimp only at hk
        rw [aget_aset] at hk
        split at hk
        · injection hk with hk; subst hk; cases hs
        · exact hq k x u hk hd hs
      · exact hq
  cases s with
  | ref r f =>
    have hr : Refers specs r := (ha (.inl rfl)).1
    unfold resolveAttr
    dsimp only
    split
    · exact use st.roots r f _ h
    · split
      · exact h
      · exact h
      · split
        · exact h
        · refine use _ r f _ ?_
          intro k x u hk hd hs
          dsimp only at hk
          rw [aget_aset] at hk
          split at hk
          · rename_i hkr; rw [hkr]; exact hr
          · exact h k x u hk hd hs
  | id i f =>
    rw [resolveAttr_id]
    have new : ∀ u, (rootOf g i f o).isDef = true → (rootOf g i f o).src = .dep u → Refers specs i := by
      intro u hx hy
      cases o with
      | none => cases hy
      | some u => cases hx
    rcases useId_eq g st i f o with ⟨h1, _⟩ | ⟨r', h1, h2⟩
    · rw [h1]; exact h
    · intro k r u hk hd hs
      rw [h2, aget_aset] at hk
      split at hk
      · rename_i hki
        subst hki
        injection hk with hk
        subst hk
        rcases h1 with ⟨_, h1⟩ | ⟨e, he, h1⟩
        · rw [h1] at hd hs; exact new u hd hs
        · rcases resolveRoots_one _ _ _ _ h1 with h3 | h3
          · rw [h3] at hd hs; exact new u hd hs
          · rw [h3] at hd hs; exact h _ _ u he hd hs
      · exact h k r u hk hd hs

/-! ### The lookup -/

theorem namedAttr_mem {s : Schema1} {k : String} {i : Nat} {a : Attr} (h : namedAttr s k i = some a) :
    a ∈ s.attrs ∧ a.name = k := by
  unfold namedAttr at h
  split at h
  · rename_i b hb
    split at h
    · rename_i hn
      injection h with h; subst h
      exact ⟨List.mem_of_getElem? hb, hn⟩
    · cases h
  · cases h

theorem aget_map_roots (l : List (String × Rooted)) (k : String) :
    aget k (l.map (fun p => (p.1, { attr := p.2.attr, group := sourceText p.2.src, isDef := p.2.isDef : Root1 }))) =
      (aget k l).map (fun r => { attr := r.attr, group := sourceText r.src, isDef := r.isDef : Root1 }) := by
  induction l with
  | nil => rfl
  | cons p l ih =>
    obtain ⟨x, r⟩ := p
    simp only [List.map_cons, aget]
    split
    · rfl
    · exact ih

/-- A resolved registry that imports nothing offers exactly its root attributes that are definitions. -/
theorem offers_root {le : Attr → Attr → Bool} {e : Env} {specs : List UGroup} {out : Output} (F : Facts le e specs out)
    (url : SchemaUrl) (listed : List SchemaUrl) (k : String) (a : Attr) (u : SchemaUrl) :
    lookupAttr1 (ofOutput url listed out) k = some (a, u) ↔
      ∃ r, aget k F.st.roots = some r ∧ r.isDef = true ∧ r.attr = a ∧
        u = (rootUrl (ofOutput url listed out) (sourceText r.src)).getD url := by
  unfold lookupAttr1
  have hr : aget k (ofOutput url listed out).roots =
      (aget k F.st.roots).map (fun r => { attr := r.attr, group := sourceText r.src, isDef := r.isDef : Root1 }) := by
    rw [← F.roots]; exact aget_map_roots out.roots k
  rw [hr]
  cases hk : aget k F.st.roots with
  | some r =>
    simp only [Option.map_some]
    split
    · rename_i hd
      constructor
      · intro h
        injection h with h
        injection h with h1 h2
        exact ⟨r, rfl, hd, h1, h2.symm⟩
      · rintro ⟨r', hr', _, h1, h2⟩
        injection hr' with hr'
        subst hr'
        rw [h1, h2]; rfl
    · rename_i hd
      constructor
      · intro h; cases h
      · rintro ⟨r', hr', h1, _⟩
        injection hr' with hr'
        subst hr'
        exact absurd h1 hd
  | none =>
    simp only [Option.map_none]
    constructor
    · intro h
      exfalso
      obtain ⟨g, _, hg⟩ := List.exists_of_findSome?_eq_some h
      cases hf : g.refs.findSome? (namedAttr (ofOutput url listed out) k) with
      | none => rw [hf] at hg; cases hg
      | some b =>
        obtain ⟨i, _, hi⟩ := List.exists_of_findSome?_eq_some hf
        obtain ⟨hm, hn⟩ := namedAttr_mem hi
        obtain ⟨r, hr⟩ := F.covered b hm
        rw [F.roots, hn, hk] at hr
        cases hr
    · rintro ⟨r, hr, _⟩; cases hr

theorem own_origin {le : Attr → Attr → Bool} {e : Env} {specs : List UGroup} {out : Output} (F : Facts le e specs out)
    (url : SchemaUrl) (listed : List SchemaUrl) : ∀ g ∈ (ofOutput url listed out).groups, ∀ v, g.grp.origin = some v → v = url := by
  intro g hg v hv
  obtain ⟨o, ho, rfl⟩ := List.mem_map.1 hg
  obtain ⟨u, hu⟩ := F.own o ho
  unfold publishedGroup at hv
  rw [hu] at hv
  dsimp only at hv
  cases hl : u.lineage with
  | none => rw [hl] at hv; cases hv
  | some l => rw [hl] at hv; injection hv with hv; exact hv.symm

theorem rootUrl_local {le : Attr → Attr → Bool} {e : Env} {specs : List UGroup} {out : Output} (F : Facts le e specs out)
    (url : SchemaUrl) (listed : List SchemaUrl) (id : String) (hid : ∀ n, id ≠ "v2_dependency." ++ n) :
    (rootUrl (ofOutput url listed out) id).getD url = url := by
  unfold rootUrl
  cases hs : stripOpt "v2_dependency." id with
  | some n => exact absurd ((stripOpt_spec _ _ _).1 hs) (hid n)
  | none =>
    dsimp only
    cases hf : (ofOutput url listed out).groups.find? (fun g => decide (g.grp.id = id)) with
    | none => rfl
    | some g =>
      cases ho : g.grp.origin with
      | none => simp [ho]
      | some v => simp [ho, own_origin F url listed g (List.mem_of_find?_eq_some hf) v ho]

theorem rootUrl_mem {le : Attr → Attr → Bool} {e : Env} {specs : List UGroup} {out : Output} (F : Facts le e specs out)
    (url : SchemaUrl) (listed : List SchemaUrl) (id : String) :
    (rootUrl (ofOutput url listed out) id).getD url ∈ url :: listed := by
  unfold rootUrl
  split
  · rename_i n _
    cases hf : (ofOutput url listed out).deps.find? (fun u => decide (u.name = n)) with
    | some v =>
      have : v ∈ listed := List.mem_of_find?_eq_some hf
      simp [this]
    | none =>
      simp only [Option.none_or]
      cases hg : (ofOutput url listed out).groups.findSome? (fun g => match g.grp.origin with
        | some u => if u.name = n then some u else none
        | none => none) with
      | none => simp
      | some v =>
        obtain ⟨g, hgm, hgv⟩ := List.exists_of_findSome?_eq_some hg
        cases ho : g.grp.origin with
        | none => rw [ho] at hgv; cases hgv
        | some x =>
          rw [ho] at hgv
          dsimp only at hgv
          split at hgv
          · injection hgv with hgv
            subst hgv
            simp [own_origin F url listed g hgm x ho]
          · cases hgv
  · cases hf : (ofOutput url listed out).groups.find? (fun g => decide (g.grp.id = id)) with
    | none => simp
    | some g =>
      cases ho : g.grp.origin with
      | none => simp [ho]
      | some v => simp [ho, own_origin F url listed g (List.mem_of_find?_eq_some hf) v ho]

theorem rootUrl_dep (s : Schema1) (u : SchemaUrl) (hu : u ∈ s.deps) (h1 : ∀ v ∈ s.deps, v.name = u.name → v = u) :
    rootUrl s (sourceText (.dep u)) = some u := by
  unfold rootUrl sourceText
  rw [(stripOpt_spec _ _ u.name).2 rfl]
  dsimp only
  cases hf : s.deps.find? (fun v => decide (v.name = u.name)) with
  | none =>
    rw [List.find?_eq_none] at hf
    exact absurd (decide_eq_true rfl) (hf u hu)
  | some v =>
    have h2 := List.find?_some hf
    have h3 := List.mem_of_find?_eq_some hf
    simp only [decide_eq_true_eq] at h2
    rw [h1 v h3 h2]
    rfl

/-! ### The registries resolution looks things up in -/

theorem chosen_mem (us : List SchemaUrl) (n : String) (c : SchemaUrl) (h : aget n (noteAllLenient us) = some c) :
    c ∈ us ∧ c.name = n := by
  suffices H : ∀ (us seen : List SchemaUrl) (m : Chosen), (∀ n c, aget n m = some c → c ∈ seen ∧ c.name = n) →
      ∀ n c, aget n (us.foldl noteLenient m) = some c → c ∈ seen ++ us ∧ c.name = n by
    have := H us [] [] (fun n c h => by simp [aget] at h) n c h
    simpa using this
  intro us
  induction us with
  | nil => intro seen m hm n c h; simpa using hm n c h
  | cons u us ih =>
    intro seen m hm n c h
    have := ih (seen ++ [u]) (noteLenient m u) ?_ n c h
    · simpa using this
    · intro n c h
      have put : ∀ v, v.name = u.name → (v ∈ seen ∨ v = u) → aget n (aset u.name v m) = some c → c ∈ seen ++ [u] ∧ c.name = n := by
        intro v hv hm' hg
        rw [aget_aset] at hg
        split at hg
        · rename_i hn
          injection hg with hg
          subst hg
          exact ⟨by simpa using hm', hv.trans hn.symm⟩
        · exact ⟨by simp [(hm n c hg).1], (hm n c hg).2⟩
      unfold noteLenient at h
      split at h
      · rename_i e he
        split at h
        · rename_i v hv
          rcases (conflict_picks_greatest e u v hv).1 with h1 | h1
          · exact put v (h1 ▸ (hm _ _ he).2) (.inl (h1 ▸ (hm _ _ he).1)) h
          · exact put v (by rw [h1]) (.inr h1) h
        · exact ⟨by simp [(hm n c h).1], (hm n c h).2⟩
      · exact put u rfl (.inr rfl) h

/-- What a lookup of an attribute in the dependencies, followed by the upgrade, gives: what one of the dependencies offers,
or what the chosen version of the registry it comes from offers instead. -/
theorem depRoot_source {glob : String → String → Bool} {deps cache : List Node} {k : String} {r : Rooted}
    (h : depRoot (envOf glob deps cache).refWorld k = .ok (some r)) :
    ∃ d ∈ deps, ∃ a0 u0, d.schema.offers k = some (a0, u0) ∧
      ((r.attr = a0 ∧ r.src = .dep u0) ∨
       ∃ m ∈ cache, m.url ≠ u0 ∧ m.url.name = u0.name ∧ (∃ d ∈ deps, m.url = d.url ∨ m.url ∈ d.schema.deps) ∧
        (∃ u', m.schema.offers a0.name = some (r.attr, u')) ∧ r.src = .dep m.url) := by
  have asAttr : ∀ (s : Schema) x, s.asDep.attr x = .ok (s.offers x) := by intro s x; cases s <;> rfl
  unfold depRoot at h
  split at h
  · cases h
  · cases h
  · rename_i d0 hd0
    obtain ⟨u0, hs0, ⟨f, hf, hfk⟩, _⟩ := depLookup_best _ _ _ hd0
    obtain ⟨f0, hf0, rfl⟩ := List.mem_map.1 hf
    obtain ⟨d, hd, rfl⟩ := List.mem_map.1 hf0
    have hoff : d.schema.offers k = some (d0.attr, u0) := by
      rw [asAttr] at hfk; injection hfk
    refine ⟨d, hd, d0.attr, u0, hoff, ?_⟩
    split at h
    · cases h
    · rename_i d' hd'
      injection h with h
      injection h with h
      subst h
      unfold upgrade at hd'
      rw [hs0] at hd'
      dsimp only at hd'
      have keep : (Except.ok d0 : Except RErr Rooted) = .ok d' → (d'.attr = d0.attr ∧ d'.src = .dep u0) := by
        intro h; injection h with h; subst h; exact ⟨rfl, hs0⟩
      split at hd'
      · exact .inl (keep hd')
      · rename_i c hc
        obtain ⟨hc1, hc2⟩ := chosen_mem _ _ _ hc
        split at hd'
        · rename_i hne
          split at hd'
          · cases hd'
          · split at hd'
            · split at hd'
              · exact .inl (keep hd')
              · rename_i s hs
                obtain ⟨dp, hdp, rfl⟩ := Option.map_eq_some_iff.1 hs
                obtain ⟨m, hm, rfl⟩ := Option.map_eq_some_iff.1 hdp
                have hmu := List.find?_some hm
                have hmc := List.mem_of_find?_eq_some hm
                simp only [decide_eq_true_eq] at hmu
                rw [asAttr] at hd'
                split at hd'
                · cases hd'
                · rename_i p hp
                  injection hd' with hd'
                  injection hp with hp
                  subst hd'
                  right
                  refine ⟨m, hmc, by rw [hmu]; exact hne, by rw [hmu]; exact hc2, ?_, ⟨p.2, hp⟩, by rw [hmu]⟩
                  obtain ⟨d2, hd2, hm2⟩ := List.mem_flatMap.1 hc1
                  rw [hmu]
                  exact ⟨d2, hd2, by simpa using hm2⟩
                · cases hd'
            · exact .inl (keep hd')
        · exact .inl (keep hd')

/-- The two ways a registry that imports nothing comes to offer an attribute. -/
theorem files_offers {le : Attr → Attr → Bool} {glob : String → String → Bool} {deps cache : List Node} {specs : List UGroup}
    {out : Output} (hm : NoMix specs) (F : Facts le (envOf glob deps cache) specs out) {k : String} {r : Rooted}
    (hr : aget k F.st.roots = some r) (hd : r.isDef = true) :
    (Defines specs k ∧ ∃ g ∈ specs, r.src = .loc g.id) ∨
    (Refers specs k ∧ depRoot (envOf glob deps cache).refWorld k = .ok (some r)) := by
  have hgood := extends_good (left_closed specs) hm (left_prepared specs) F
  have hid : ∀ c ∈ F.cs, ∃ g ∈ specs, c.id = g.id ∧ c.pfx = g.pfx := by
    intro c hc
    obtain ⟨g, hg, h1, h2⟩ := (hgood c hc).from_
    obtain ⟨g0, hg0, rfl⟩ := List.mem_map.1 hg
    exact ⟨g0, hg0, h1, h2⟩
  have hiso := (F.inv.roots k r hr).1 hd
  cases hiso with
  | defined _ _ h1 h2 =>
    left
    obtain ⟨g, hg, hrg⟩ := List.mem_flatMap.1 h1
    obtain ⟨c, hc, rfl⟩ := List.mem_map.1 hg
    obtain ⟨a, ha, hra⟩ := List.mem_filterMap.1 hrg
    obtain ⟨s, o⟩ := a
    cases s with
    | ref r f => cases hra
    | id i f =>
      dsimp only at hra
      split at hra
      · rename_i hik
        injection hra with hra
        subst hra
        cases o with
        | some u => cases h2
        | none =>
          have hl := (hgood c hc).attrs.each _ ha (.inr rfl)
          obtain ⟨g0, hg0, e1, _⟩ := hid c hc
          refine ⟨.inl ?_, g0, hg0, by rw [← e1]; rfl⟩
          rw [← hik.1]
          exact hl
      · cases hra
  | dependency _ _ h1 =>
    right
    refine ⟨?_, h1⟩
    have hsrc : ∃ u, r.src = .dep u := by
      obtain ⟨d, _, a0, u0, _, h | ⟨m, _, _, _, _, _, h⟩⟩ := depRoot_source h1
      · exact ⟨u0, h.2⟩
      · exact ⟨_, h⟩
    obtain ⟨u, hu⟩ := hsrc
    refine resolveRefs_ind (w := (envOf glob deps cache).refWorld) (fun _ a => GoodSpec (Left specs) a.spec a.origin)
      (DepsReferred specs) (fun g st a ha h => depsReferred_step specs _ g st a ha h) _ ?_ ?_ _ _ F.refs k r u hr hd hu
    · intro g hg a ha
      obtain ⟨c, hc, rfl⟩ := List.mem_map.1 hg
      exact (hgood c hc).attrs.each a ha
    · intro k r u hk; simp [aget] at hk
  | prefixed g a r f root hg ha hs hp _ _ =>
    left
    obtain ⟨c, hc, rfl⟩ := List.mem_map.1 hg
    obtain ⟨g0, hg0, e1, e2⟩ := hid c hc
    have hl := (hgood c hc).attrs.each a ha
    rw [hs] at hl
    obtain ⟨h, hh, b, hb, f', h1, h2⟩ := (hl (.inl rfl)).2 hp
    exact ⟨.inr ⟨g0, hg0, h, hh, b, hb, r, f', h1, h2, by rw [← e2]; rfl⟩, g0, hg0, by rw [← e1]; rfl⟩

/-- A group without `extends` and `include_groups` keeps its attributes. -/
theorem kept {le : Attr → Attr → Bool} {e : Env} {specs : List UGroup} {out : Output} (F : Facts le e specs out) {g : UGroup}
    (hg : g ∈ specs) (h1 : g.ext = none) (h2 : g.includes = []) {a : UAttr} (ha : a ∈ g.attrs) :
    ∃ x ∈ F.cs.map toRef, ∃ b ∈ x.pending, b.origin = none ∧ b.spec = (match a.spec with
      | .ref r f => AttrSpec.ref r f
      | .id i f => .id (prefixed g.pfx i) f) := by
  refine ⟨_, List.mem_map_of_mem (resolveExtends_keeps _ (List.mem_map_of_mem hg) ?_ F.extends_), _,
    List.mem_map_of_mem ha, ?_, ?_⟩
  · simp [isPending, h1, h2]
  · cases a.spec <;> rfl
  · cases a.spec <;> rfl

/-- What is true of the attributes that inheritance leaves, when the only definition of `k` is `f`. -/
def LeftOnly (k : String) (f : IdFields) (P : String → Prop) : AttrSpec → Prop
  | .id i f' => i = k → f' = f
  | .ref r f' => r ≠ k ∧ (f'.prefixFlag = true → P r)

theorem leftOnly_closed (k : String) (f : IdFields) (P : String → Prop) : Closed (LeftOnly k f P) := by
  intro s old hs hk h1 h2
  cases s with
  | id i p => cases hs
  | ref r p =>
    cases old with
    | id i p' =>
      simp only [AttrSpec.key] at hk
      subst hk
      intro hi
      exact absurd hi h1.1
    | ref r' p' =>
      simp only [AttrSpec.key] at hk
      subst hk
      refine ⟨h1.1, ?_⟩
      simp only [pfx_val, Bool.or_eq_true]
      rintro (h | h)
      · exact h1.2 h
      · exact h2.2 h

/-! ### C176, C177 -/

theorem lookupAttr2_spec {s : Schema2} {k : String} {a : Attr} {u : SchemaUrl} (h : lookupAttr2 s k = some (a, u)) :
    a.name = k ∧ (∃ i ∈ s.attributes, ∃ b, s.catalog[i]? = some b ∧ b.key = k) ∧ u ∈ s.url :: s.deps := by
  obtain ⟨i, hi, h⟩ := List.exists_of_findSome?_eq_some h
  split at h
  · rename_i b hb
    split at h
    · rename_i hk
      injection h with h
      injection h with h1 h2
      subst h1; subst h2
      refine ⟨hk, ⟨i, hi, b, hb, hk⟩, ?_⟩
      unfold sourceUrl2
      split
      · rename_i j _
        cases hj : s.deps[j]? with
        | none => simp
        | some v => simp [List.mem_of_getElem? hj]
      · simp
    · cases h
  · cases h

theorem rootsOf_name {gs : List RGrp} {k : String} {r : Rooted} (h : r ∈ rootsOf gs k) : r.attr.name = k := by
  obtain ⟨g, _, hrg⟩ := List.mem_flatMap.1 h
  obtain ⟨a, _, hra⟩ := List.mem_filterMap.1 hrg
  split at hra
  · cases hra
  · split at hra
    · rename_i hik
      injection hra with hra
      subst hra
      exact hik.1
    · cases hra

/-- C176 for one registry, and what C177 needs of it. -/
theorem offered {le : Attr → Attr → Bool} (hle : TotalPre le) {glob : String → String → Bool} {n : Node}
    (hn : Resolves le glob n) (h1 : ∀ m, Below m n → ImportsNothing m) (h2 : ∀ m, Below m n → OfFiles NoMix m)
    (k : String) (a : Attr) (u : SchemaUrl) (ho : n.schema.offers k = some (a, u)) :
    a.name = k ∧ u ∈ n.url :: n.schema.deps ∧ (∃ m, Below m n ∧ Declares m k ∧ ∃ u', m.schema.offers k = some (a, u')) ∧
    (OneVersion n → (∀ m, Below m n → OfFiles PlainIds m) →
      ∃ m, Below m n ∧ Declares m k ∧ m.schema.offers k = some (a, u) ∧ (FromFiles m → m.url = u)) := by
  induction hn generalizing a u with
  | published s =>
    obtain ⟨e1, e2, e3⟩ := lookupAttr2_spec ho
    exact ⟨e1, e3, ⟨_, .self, e2, u, ho⟩, fun _ _ => ⟨_, .self, e2, ho, fun h => h.elim⟩⟩
  | files url inc specs blocks deps cache listed out hdeps hcache hlisted hres ihd ihc =>
    obtain ⟨rfl, rfl⟩ := h1 _ .self
    have hm : NoMix specs := h2 _ .self
    obtain ⟨F⟩ := facts hle hres
    obtain ⟨r, hr, hd, hra, hu⟩ := (offers_root F url listed k a u).1 ho
    have below : ∀ d ∈ deps, ∀ m, Below m d → Below m (.files url false specs [] deps cache listed out) :=
      fun d hd m hm => .dep _ _ _ _ _ _ _ _ d hd hm
    have belowc : ∀ d ∈ cache, ∀ m, Below m d → Below m (.files url false specs [] deps cache listed out) :=
      fun d hd m hm => .cached _ _ _ _ _ _ _ _ d hd hm
    have hmem : u ∈ url :: listed := by rw [hu]; exact rootUrl_mem F url listed _
    rcases files_offers hm F hr hd with ⟨hdef, g, hg, hsrc⟩ | ⟨href, hdep⟩
    · refine ⟨?_, hmem, ⟨_, .self, hdef, u, ho⟩, ?_⟩
      · rw [← hra]
        rcases (F.inv.roots k r hr).1 hd with ⟨_, _, h3, _⟩ | ⟨_, _, h3⟩ | ⟨g, b, r0, f, root, _, _, _, _, _, _⟩
        · exact rootsOf_name h3
        · obtain ⟨d, _, a0, u0, _, h | ⟨m, _, _, _, _, _, h⟩⟩ := depRoot_source h3
          · rw [hsrc] at h; cases h.2
          · rw [hsrc] at h; cases h
        · rfl
      · intro _ hpl
        refine ⟨_, .self, hdef, ho, fun _ => ?_⟩
        rw [hu, hsrc]
        exact (rootUrl_local F url listed g.id (hpl _ .self g hg)).symm
    · obtain ⟨d, hdm, a0, u0, hoff, hcase⟩ := depRoot_source hdep
      obtain ⟨n0, m0, ⟨md, b0, c0, o0⟩, v0⟩ := ihd d hdm (fun m hb => h1 m (below d hdm m hb)) (fun m hb => h2 m (below d hdm m hb)) a0 u0 hoff
      have hul : ∀ x, x ∈ d.url :: d.schema.deps → x ∈ listed :=
        fun x hx => (hlisted x).2 ⟨d, hdm, by simpa using hx⟩
      rcases hcase with ⟨e1, e2⟩ | ⟨m, hmc, hne, hname, hml, ⟨u', hmo⟩, e2⟩
      · rw [hra] at e1
        subst e1
        refine ⟨n0, hmem, ⟨md, below d hdm md b0, c0, o0⟩, ?_⟩
        intro hone hpl
        have hone' : ∀ v ∈ listed, v.name = u0.name → v = u0 := fun v hv hn =>
          hone v u0 (List.mem_cons_of_mem _ hv) (List.mem_cons_of_mem _ (hul u0 m0)) hn
        have hur : u = u0 := by
          rw [hu, e2, rootUrl_dep (ofOutput url listed out) u0 (hul u0 m0) hone']; rfl
        subst hur
        obtain ⟨x, x1, x2, x3, x4⟩ := v0
          (fun p q hp hq hpq => hone p q (List.mem_cons_of_mem _ (hul p hp)) (List.mem_cons_of_mem _ (hul q hq)) hpq)
          (fun m hb => hpl m (below d hdm m hb))
        exact ⟨x, below d hdm x x1, x2, x3, x4⟩
      · rw [hra] at hmo
        rw [n0] at hmo
        obtain ⟨n1, m1, ⟨md1, b1, c1, o1⟩, v1⟩ := ihc m hmc (fun x hb => h1 x (belowc m hmc x hb)) (fun x hb => h2 x (belowc m hmc x hb)) a u' hmo
        refine ⟨n1, hmem, ⟨md1, belowc m hmc md1 b1, c1, o1⟩, ?_⟩
        intro hone _
        exfalso
        apply hne
        exact hone m.url u0 (List.mem_cons_of_mem _ ((hlisted _).2 hml)) (List.mem_cons_of_mem _ (hul u0 m0)) hname

/-- C176, what holds: in a chain of registries that import nothing (and in which no group has both `extends` and
`include_groups`), an attribute that a registry offers has the name asked for and is the one that a registry below offers
which declares it. Missing: chains with imports, where it is false (`attribute_of_chain_refuted`). -/
theorem attribute_of_chain_partial {le : Attr → Attr → Bool} (hle : TotalPre le) {glob : String → String → Bool} {n : Node}
    (hn : Resolves le glob n) (h1 : ∀ m, Below m n → ImportsNothing m) (h2 : ∀ m, Below m n → OfFiles NoMix m)
    (k : String) (a : Attr) (u : SchemaUrl) (ho : n.schema.offers k = some (a, u)) :
    a.name = k ∧ ∃ m, Below m n ∧ Declares m k ∧ ∃ u', m.schema.offers k = some (a, u') :=
  have h := offered hle hn h1 h2 k a u ho
  ⟨h.1, h.2.2.1⟩

/-- C177, what holds: if moreover only one version of each registry is around, and no group id looks like the name given to
attributes of dependencies, the URL an attribute is offered under is that of the registry that declares it. (A published
schema says itself where its attributes come from.) -/
theorem origin_of_chain_partial {le : Attr → Attr → Bool} (hle : TotalPre le) {glob : String → String → Bool} {n : Node}
    (hn : Resolves le glob n) (h1 : ∀ m, Below m n → ImportsNothing m) (h2 : ∀ m, Below m n → OfFiles NoMix m)
    (h3 : OneVersion n) (h4 : ∀ m, Below m n → OfFiles PlainIds m)
    (k : String) (a : Attr) (u : SchemaUrl) (ho : n.schema.offers k = some (a, u)) :
    ∃ m, Below m n ∧ Declares m k ∧ m.schema.offers k = some (a, u) ∧ (FromFiles m → m.url = u) :=
  (offered hle hn h1 h2 k a u ho).2.2.2 h3 h4

/-! ### C178, C179 -/

/-- The only definition of `k` in the files has the fields `f`, and nothing refers to `k` or makes it with `prefix: true`. -/
def DefinedOnce (specs : List UGroup) (k : String) (f : IdFields) : Prop :=
  ∀ g ∈ specs, ∀ a ∈ g.attrs,
    (∀ i f', a.spec = .id i f' → prefixed g.pfx i = k → f' = f) ∧
    (∀ r f', a.spec = .ref r f' → r ≠ k ∧ (f'.prefixFlag = true → ∀ h ∈ specs, h.pfx ++ "." ++ r ≠ k))

/-- C178, what holds: a registry that imports nothing offers the attribute that one of its groups defines (a group without
`extends` and `include_groups`, an attribute that is not marked as excluded) under its own URL, whatever its dependencies
offer under that name. The attribute is the one written, if the files define it once. -/
theorem own_definition_partial {le : Attr → Attr → Bool} (hle : TotalPre le) {glob : String → String → Bool} {url : SchemaUrl}
    {specs : List UGroup} {deps cache : List Node} {listed : List SchemaUrl} {out : Output}
    (hn : Resolves le glob (.files url false specs [] deps cache listed out))
    (hp : PlainIds specs) (hm : NoMix specs) {g : UGroup} (hg : g ∈ specs) (h1 : g.ext = none) (h2 : g.includes = [])
    {a : UAttr} (ha : a ∈ g.attrs) {i : String} {f : IdFields} (hs : a.spec = .id i f)
    (hx : isExcludedOpt f.annotations = false) :
    ∃ x, (Node.files url false specs [] deps cache listed out).schema.offers (prefixed g.pfx i) = some (x, url) ∧
      (DefinedOnce specs (prefixed g.pfx i) f → x = attrOfId (prefixed g.pfx i) f) := by
  cases hn with
  | files _ _ _ _ _ _ _ _ _ _ hlisted hres =>
    obtain ⟨F⟩ := facts hle hres
    obtain ⟨c, hc, b, hb, e1, e2⟩ := kept F hg h1 h2 ha
    rw [hs] at e2
    obtain ⟨r, gid, hr, hd, hsrc⟩ := resolveRefs_own (prefixed g.pfx i) ⟨c, hc, b, hb, e1, f, e2, hx⟩ F.refs
    have hloc : ∃ g ∈ specs, gid = g.id := by
      rcases files_offers hm F hr hd with ⟨_, g, hg, h⟩ | ⟨_, h⟩
      · rw [hsrc] at h; injection h with h; exact ⟨g, hg, h⟩
      · obtain ⟨d, _, a0, u0, _, h | ⟨m, _, _, _, _, _, h⟩⟩ := depRoot_source h
        · rw [hsrc] at h; cases h.2
        · rw [hsrc] at h; cases h
    obtain ⟨g', hg', rfl⟩ := hloc
    refine ⟨r.attr, (offers_root F url listed _ _ _).2 ⟨r, hr, hd, rfl, ?_⟩, ?_⟩
    · rw [hsrc]; exact (rootUrl_local F url listed _ (hp g' hg')).symm
    · generalize prefixed g.pfx i = k at *
      intro honce
      have hgood := extends_good (leftOnly_closed k f (fun r => ∀ h ∈ specs, h.pfx ++ "." ++ r ≠ k)) hm
        (prepared_good _ specs (fun g hg a ha => ⟨fun i f' hs hk => (honce g hg a ha).1 i f' hs hk,
          fun r f' hs => (honce g hg a ha).2 r f' hs⟩)) F
      have hiso := (F.inv.roots _ r hr).1 hd
      cases hiso with
      | defined _ _ h1 h2 =>
        obtain ⟨g, hg, hrg⟩ := List.mem_flatMap.1 h1
        obtain ⟨c, hc, rfl⟩ := List.mem_map.1 hg
        obtain ⟨a, ha, hra⟩ := List.mem_filterMap.1 hrg
        obtain ⟨s, o⟩ := a
        cases s with
        | ref r f => cases hra
        | id j f' =>
          dsimp only at hra
          split at hra
          · rename_i hik
            injection hra with hra
            subst hra
            cases o with
            | some u => cases h2
            | none =>
              have hl := (hgood c hc).attrs.each _ ha (.inr rfl)
              have := hl hik.1
              rw [this, hik.1]
          · cases hra
      | dependency _ _ h1 =>
        obtain ⟨d, _, a0, u0, _, h | ⟨m, _, _, _, _, _, h⟩⟩ := depRoot_source h1
        · rw [hsrc] at h; cases h.2
        · rw [hsrc] at h; cases h
      | prefixed g1 a1 r1 f1 root hg1 ha1 hs1 hp1 _ _ =>
        exfalso
        obtain ⟨c, hc, rfl⟩ := List.mem_map.1 hg1
        have hl := (hgood c hc).attrs.each a1 ha1
        rw [hs1] at hl
        obtain ⟨g0, hg0, _, e2⟩ := (hgood c hc).from_
        obtain ⟨g2, hg2, rfl⟩ := List.mem_map.1 hg0
        refine (hl (.inl rfl)).2 hp1 g2 hg2 ?_
        rw [← e2]; rfl

/-- C179: a registry that imports nothing (and in which no group has both `extends` and `include_groups`) offers only
attributes its files define or refer to. -/
theorem only_mentioned {le : Attr → Attr → Bool} (hle : TotalPre le) {glob : String → String → Bool} {url : SchemaUrl}
    {specs : List UGroup} {deps cache : List Node} {listed : List SchemaUrl} {out : Output}
    (hn : Resolves le glob (.files url false specs [] deps cache listed out)) (hm : NoMix specs) (k : String)
    (ho : ((Node.files url false specs [] deps cache listed out).schema.offers k).isSome = true) :
    Defines specs k ∨ Refers specs k := by
  cases hn with
  | files _ _ _ _ _ _ _ _ _ _ hlisted hres =>
    obtain ⟨F⟩ := facts hle hres
    obtain ⟨⟨a, u⟩, ho⟩ := Option.isSome_iff_exists.1 ho
    obtain ⟨r, hr, hd, _⟩ := (offers_root F url listed k a u).1 ho
    rcases files_offers hm F hr hd with ⟨h, _⟩ | ⟨h, _⟩
    · exact .inl h
    · exact .inr h

/-- C179: and it offers every attribute that one of its groups refers to (a group without `extends` and
`include_groups`). -/
theorem all_referred {le : Attr → Attr → Bool} (hle : TotalPre le) {glob : String → String → Bool} {url : SchemaUrl}
    {specs : List UGroup} {deps cache : List Node} {listed : List SchemaUrl} {out : Output}
    (hn : Resolves le glob (.files url false specs [] deps cache listed out)) {g : UGroup} (hg : g ∈ specs)
    (h1 : g.ext = none) (h2 : g.includes = []) {a : UAttr} (ha : a ∈ g.attrs) {k : String} {f : RefFields}
    (hs : a.spec = .ref k f) :
    ((Node.files url false specs [] deps cache listed out).schema.offers k).isSome = true := by
  cases hn with
  | files _ _ _ _ _ _ _ _ _ _ hlisted hres =>
    obtain ⟨F⟩ := facts hle hres
    obtain ⟨c, hc, b, hb, e1, e2⟩ := kept F hg h1 h2 ha
    rw [hs] at e2
    obtain ⟨r, hr, hd⟩ := resolveRefs_known k (by intro g hg; obtain ⟨c, _, rfl⟩ := List.mem_map.1 hg; rfl)
      ⟨c, hc, b, hb, by rw [e2]; rfl, by rw [e2]; rfl⟩ F.refs
    have := (offers_root F url listed k r.attr _).2 ⟨r, hr, hd, rfl, rfl⟩
    change (lookupAttr1 (ofOutput url listed out) k).isSome = true
    rw [this]; rfl

end Verif.Chain
