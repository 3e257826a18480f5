import Verif.Chain.Props
/-
Concrete chains of registries: cases that meet the hypotheses of the theorems of Verif.Chain.Props, and chains of which the
stronger claims are false.
-/
namespace Verif.Chain
open Verif.Util Verif.Resolver Verif.Pipeline Verif.Imports

def outOf : Except Fail Output → Output
  | .ok o => o
  | .error _ => { groups := [], attrs := [], origins := [], warnings := [], roots := [] }

def exGlob (p k : String) : Bool := decide (p = "*" ∨ p = k)

/-- A registry resolved over others. -/
def mk (url : SchemaUrl) (inc : Bool) (specs : List UGroup) (blocks : List Block) (deps cache : List Node) : Node :=
  .files url inc specs blocks deps cache (deps.flatMap (fun d => d.url :: d.schema.deps))
    (outOf (resolveRegistry exLe (envOf exGlob deps cache) inc specs blocks))

theorem mk_resolves {url : SchemaUrl} {inc : Bool} {specs : List UGroup} {blocks : List Block} {deps cache : List Node}
    (h1 : ∀ d ∈ deps, Resolves exLe exGlob d) (h2 : ∀ d ∈ cache, Resolves exLe exGlob d)
    (h3 : resolveRegistry exLe (envOf exGlob deps cache) inc specs blocks =
      .ok (outOf (resolveRegistry exLe (envOf exGlob deps cache) inc specs blocks))) :
    Resolves exLe exGlob (mk url inc specs blocks deps cache) :=
  .files _ _ _ _ _ _ _ _ h1 h2 (by intro u; simp) h3

theorem below_mk {m : Node} {url : SchemaUrl} {inc : Bool} {specs : List UGroup} {blocks : List Block}
    {deps cache : List Node} (h : Below m (mk url inc specs blocks deps cache)) :
    m = mk url inc specs blocks deps cache ∨ ∃ d ∈ deps ++ cache, Below m d := by
  generalize hn : mk url inc specs blocks deps cache = n at h
  cases h with
  | self => exact .inl rfl
  | dep _ _ _ _ deps' _ _ _ d hd hb =>
    injection hn with _ _ _ _ e _ _ _
    subst e
    exact .inr ⟨d, by simp [hd], hb⟩
  | cached _ _ _ _ _ cache' _ _ d hd hb =>
    injection hn with _ _ _ _ _ e _ _
    subst e
    exact .inr ⟨d, by simp [hd], hb⟩

def urlOf (name : String) (v : Nat) : SchemaUrl := { name := name, tail := "1." ++ toString v ++ ".0", sv := some ⟨1, v, 0, 0⟩ }

/-- Defines `x`, and has a metric that refers to it with a note. -/
def baseSpecs : List UGroup :=
  [{ id := "registry.x", attrs := [⟨.id "x" { type := "string", brief := some "the base" }, none⟩] },
   { id := "metric.m", type := .metric, metricName := some "m", attrs := [⟨.ref "x" { note := some "for m" }, none⟩] }]

def base : Node := mk (urlOf "base" 1) false baseSpecs [] [] []
def mid : Node := mk (urlOf "mid" 1) false
  [{ id := "metric.n", type := .metric, metricName := some "n", attrs := [⟨.ref "x" { note := some "for n" }, none⟩] }] [] [base] [base]
def top : Node := mk (urlOf "top" 1) false
  [{ id := "metric.o", type := .metric, metricName := some "o", attrs := [⟨.ref "x" { note := some "for o" }, none⟩] }] [] [mid] [mid, base]

theorem base_resolves : Resolves exLe exGlob base := mk_resolves (by simp) (by simp) rfl
theorem mid_resolves : Resolves exLe exGlob mid := mk_resolves (by simp [base_resolves]) (by simp [base_resolves]) rfl
theorem top_resolves : Resolves exLe exGlob top :=
  mk_resolves (by simp [mid_resolves]) (by simp [mid_resolves, base_resolves]) rfl

/-- What is seen of an offered attribute. -/
def view (o : Option (Attr × SchemaUrl)) : Option (String × String × SchemaUrl) := o.map (fun p => (p.1.brief, p.1.note, p.2))

theorem view_some {o : Option (Attr × SchemaUrl)} {b t : String} {u : SchemaUrl} (h : view o = some (b, t, u)) :
    ∃ a, o = some (a, u) ∧ a.brief = b ∧ a.note = t := by
  cases o with
  | none => cases h
  | some p =>
    obtain ⟨a, v⟩ := p
    injection h with h
    injection h with h1 h
    injection h with h2 h3
    exact ⟨a, by rw [← h3], h1, h2⟩

/-- Every registry of a chain satisfies `P` when those listed do. -/
theorem below_base {P : Node → Prop} (h : P base) : ∀ m, Below m base → P m := by
  intro m hm
  rcases below_mk hm with rfl | ⟨d, hd, _⟩
  · exact h
  · cases hd

theorem below_mid {P : Node → Prop} (h : P base) (h' : P mid) : ∀ m, Below m mid → P m := by
  intro m hm
  rcases below_mk hm with rfl | ⟨d, hd, hb⟩
  · exact h'
  · simp only [List.cons_append, List.nil_append, List.mem_cons, List.not_mem_nil, or_false, or_self] at hd
    subst hd
    exact below_base h m hb

theorem below_top {P : Node → Prop} (h : P base) (h' : P mid) (h'' : P top) : ∀ m, Below m top → P m := by
  intro m hm
  rcases below_mk hm with rfl | ⟨d, hd, hb⟩
  · exact h''
  · simp only [List.cons_append, List.nil_append, List.mem_cons, List.not_mem_nil, or_false] at hd
    rcases hd with rfl | rfl | rfl
    · exact below_mid h h' m hb
    · exact below_mid h h' m hb
    · exact below_base h m hb

theorem notV (i : String) (hi : i.toList.head? ≠ some 'v') (n : String) : i ≠ "v2_dependency." ++ n := by
  rintro rfl
  apply hi
  rw [String.toList_append]
  rfl

/-- `attribute_of_chain_partial` and `origin_of_chain_partial` apply to a chain of three registries, in which the attribute
comes from the lowest: the references of the others override a field of it for themselves only. -/
example : Resolves exLe exGlob top ∧ (∀ m, Below m top → ImportsNothing m) ∧ (∀ m, Below m top → OfFiles NoMix m) ∧
    OneVersion top ∧ (∀ m, Below m top → OfFiles PlainIds m) ∧
    view (top.schema.offers "x") = some ("the base", "", urlOf "base" 1) := by
  refine ⟨top_resolves, below_top ⟨rfl, rfl⟩ ⟨rfl, rfl⟩ ⟨rfl, rfl⟩, ?_, ?_, ?_, by rfl⟩
  · refine below_top ?_ ?_ ?_
    · intro g hg; simp only [baseSpecs, List.mem_cons, List.not_mem_nil, or_false] at hg; rcases hg with rfl | rfl <;> exact .inl rfl
    · intro g hg; simp only [List.mem_cons, List.not_mem_nil, or_false] at hg; subst hg; exact .inl rfl
    · intro g hg; simp only [List.mem_cons, List.not_mem_nil, or_false] at hg; subst hg; exact .inl rfl
  · have : top.url :: top.schema.deps = [urlOf "top" 1, urlOf "mid" 1, urlOf "base" 1] := by rfl
    unfold OneVersion
    rw [this]
    intro u v hu hv h
    simp only [List.mem_cons, List.not_mem_nil, or_false] at hu hv
    rcases hu with rfl | rfl | rfl <;> rcases hv with rfl | rfl | rfl <;> first | rfl | exact absurd h (by decide)
  · refine below_top ?_ ?_ ?_
    · intro g hg; simp only [baseSpecs, List.mem_cons, List.not_mem_nil, or_false] at hg
      rcases hg with rfl | rfl <;> exact notV _ (by decide)
    · intro g hg; simp only [List.mem_cons, List.not_mem_nil, or_false] at hg; subst hg; exact notV _ (by decide)
    · intro g hg; simp only [List.mem_cons, List.not_mem_nil, or_false] at hg; subst hg; exact notV _ (by decide)

theorem base_view : view (base.schema.offers "x") = some ("the base", "", urlOf "base" 1) := by rfl

/-! ### With imports -/

/-- Imports the metric of `base`, and has no groups of its own. -/
def importer : Node := mk (urlOf "importer" 1) false [] [{ path := "f", metrics := ["m"] }] [base] [base]
def overImporter : Node := mk (urlOf "over" 1) false
  [{ id := "metric.o", type := .metric, metricName := some "o", attrs := [⟨.ref "x" {}, none⟩] }] [] [importer] [importer, base]

theorem importer_resolves : Resolves exLe exGlob importer :=
  mk_resolves (by simp [base_resolves]) (by simp [base_resolves]) rfl
theorem overImporter_resolves : Resolves exLe exGlob overImporter :=
  mk_resolves (by simp [importer_resolves]) (by simp [importer_resolves, base_resolves]) rfl

theorem below_importer {P : Node → Prop} (h : P base) (h' : P importer) : ∀ m, Below m importer → P m := by
  intro m hm
  rcases below_mk hm with rfl | ⟨d, hd, hb⟩
  · exact h'
  · simp only [List.cons_append, List.nil_append, List.mem_cons, List.not_mem_nil, or_false, or_self] at hd
    subst hd
    exact below_base h m hb

theorem below_overImporter {P : Node → Prop} (h : P base) (h' : P importer) (h'' : P overImporter) :
    ∀ m, Below m overImporter → P m := by
  intro m hm
  rcases below_mk hm with rfl | ⟨d, hd, hb⟩
  · exact h''
  · simp only [List.cons_append, List.nil_append, List.mem_cons, List.not_mem_nil, or_false] at hd
    rcases hd with rfl | rfl | rfl
    · exact below_importer h h' m hb
    · exact below_importer h h' m hb
    · exact below_base h m hb

/-- Files with one attribute, a plain reference, define nothing. -/
theorem refers_only (g : UGroup) (r : String) (f : RefFields) (hg : g.attrs = [⟨.ref r f, none⟩]) (hf : f.prefixFlag = false)
    (gs : List UGroup) (hgs : ∀ h ∈ gs, h = g ∨ h.attrs = []) (k : String) : ¬ Defines gs k := by
  rintro (⟨h, hh, a, ha, i, p, hs, _⟩ | ⟨_, _, h, hh, a, ha, i, p, hs, hp, _⟩)
  · rcases hgs h hh with rfl | e
    · rw [hg] at ha; simp only [List.mem_cons, List.not_mem_nil, or_false] at ha; subst ha; cases hs
    · rw [e] at ha; cases ha
  · rcases hgs h hh with rfl | e
    · rw [hg] at ha; simp only [List.mem_cons, List.not_mem_nil, or_false] at ha; subst ha
      injection hs with _ hs
      rw [← hs, hf] at hp
      cases hp
    · rw [e] at ha; cases ha

/-- C176 is false with imports: importing a metric that refers to an attribute with a note of its own makes that copy the
attribute the importing registry offers, though no registry below declares it so. -/
theorem attribute_of_chain_refuted : ∃ (le : Attr → Attr → Bool) (glob : String → String → Bool) (n : Node) (k : String)
    (a : Attr) (u : SchemaUrl), TotalPre le ∧ Resolves le glob n ∧ (∀ m, Below m n → OfFiles NoMix m) ∧
      n.schema.offers k = some (a, u) ∧ ¬ ∃ m, Below m n ∧ Declares m k ∧ ∃ u', m.schema.offers k = some (a, u') := by
  have hv : view (overImporter.schema.offers "x") = some ("the base", "for m", urlOf "base" 1) := by rfl
  obtain ⟨a, ho, _, hnote⟩ := view_some hv
  refine ⟨exLe, exGlob, overImporter, "x", a, _, exLe_totalPre, overImporter_resolves, ?_, ho, ?_⟩
  · refine below_overImporter ?_ ?_ ?_
    · intro g hg; simp only [baseSpecs, List.mem_cons, List.not_mem_nil, or_false] at hg; rcases hg with rfl | rfl <;> exact .inl rfl
    · intro g hg; cases hg
    · intro g hg; simp only [List.mem_cons, List.not_mem_nil, or_false] at hg; subst hg; exact .inl rfl
  · rintro ⟨m, hb, hd, u', ho⟩
    refine below_overImporter (P := fun m => Declares m "x" → m.schema.offers "x" = some (a, u') → False) ?_ ?_ ?_ m hb hd ho
    · intro _ ho
      obtain ⟨b, hb, _, hn⟩ := view_some base_view
      rw [ho] at hb
      injection hb with hb
      injection hb with hb
      rw [← hb, hnote] at hn
      exact absurd hn (by decide)
    · intro hd _
      rcases hd with ⟨h, hh, _⟩ | ⟨h, hh, _⟩ <;> cases hh
    · intro hd _
      exact refers_only _ "x" {} rfl rfl _ (by intro h hh; simp only [List.mem_cons, List.not_mem_nil, or_false] at hh; exact .inl hh) "x" hd

def bothSpecs : List UGroup :=
  [{ id := "registry.mine", attrs := [⟨.id "x" { type := "int", brief := some "mine" }, none⟩] }]

/-- Defines `x` itself and imports the metric of `base`. -/
def both : Node := mk (urlOf "both" 1) false bothSpecs
  [{ path := "f", metrics := ["m"] }] [base] [base]


theorem both_resolves : Resolves exLe exGlob both := mk_resolves (by simp [base_resolves]) (by simp [base_resolves]) rfl

/-- C178 is false with imports: the attribute of an imported metric replaces the definition of the registry. -/
theorem own_definition_refuted : ∃ (le : Attr → Attr → Bool) (glob : String → String → Bool) (url : SchemaUrl)
    (specs : List UGroup) (blocks : List Block) (deps cache : List Node) (listed : List SchemaUrl) (out : Output)
    (g : UGroup) (a : UAttr) (i : String) (f : IdFields) (x : Attr) (u : SchemaUrl),
    TotalPre le ∧ Resolves le glob (.files url false specs blocks deps cache listed out) ∧ PlainIds specs ∧ NoMix specs ∧
    g ∈ specs ∧ g.ext = none ∧ g.includes = [] ∧ a ∈ g.attrs ∧ a.spec = .id i f ∧ isExcludedOpt f.annotations = false ∧
    DefinedOnce specs (prefixed g.pfx i) f ∧
    (Node.files url false specs blocks deps cache listed out).schema.offers (prefixed g.pfx i) = some (x, u) ∧
    u ≠ url ∧ x ≠ attrOfId (prefixed g.pfx i) f := by
  have hv : view (both.schema.offers "x") = some ("the base", "for m", urlOf "base" 1) := by rfl
  obtain ⟨x, ho, hbrief, _⟩ := view_some hv
  refine ⟨exLe, exGlob, urlOf "both" 1, bothSpecs, _, _, _, _, _, _, _, "x", _, x, _, exLe_totalPre, both_resolves, ?_, ?_,
    List.mem_cons_self, rfl, rfl, List.mem_cons_self, rfl, rfl, ?_, ho, by decide, ?_⟩
  · intro g hg n
    simp only [bothSpecs, List.mem_cons, List.not_mem_nil, or_false] at hg
    subst hg
    exact notV _ (by decide) n
  · intro g hg
    simp only [bothSpecs, List.mem_cons, List.not_mem_nil, or_false] at hg
    subst hg
    exact .inl rfl
  · intro g hg a ha
    simp only [bothSpecs, List.mem_cons, List.not_mem_nil, or_false] at hg
    subst hg
    simp only [List.mem_cons, List.not_mem_nil, or_false] at ha
    subst ha
    refine ⟨?_, ?_⟩
    · intro i f h _
      injection h with _ h
      exact h.symm
    · intro r f h; cases h
  · intro h
    have := congrArg Attr.brief h
    rw [hbrief] at this
    exact absurd this (by decide)

/-- Defines `x` itself, with a dependency that offers an `x` too, and refers to the `x` it has. -/
def ownSpecs : List UGroup :=
  [{ id := "registry.mine", attrs := [⟨.id "x" { type := "int", brief := some "mine" }, none⟩] },
   { id := "metric.n", type := .metric, metricName := some "n", attrs := [⟨.ref "x" { note := some "for n" }, none⟩] }]
def owner : Node := mk (urlOf "owner" 1) false ownSpecs [] [base] [base]
theorem owner_resolves : Resolves exLe exGlob owner := mk_resolves (by simp [base_resolves]) (by simp [base_resolves]) rfl

/-- `own_definition_partial`, `only_mentioned` and `all_referred` apply to it; `all_referred` also applies to `mid`, which
refers to an attribute of its dependency. -/
example : Resolves exLe exGlob owner ∧ PlainIds ownSpecs ∧ NoMix ownSpecs ∧
    isExcludedOpt (none : Option Annots) = false ∧
    view (base.schema.offers "x") = some ("the base", "", urlOf "base" 1) ∧
    view (owner.schema.offers "x") = some ("mine", "", urlOf "owner" 1) ∧
    view (mid.schema.offers "x") = some ("the base", "", urlOf "base" 1) ∧ owner.schema.offers "y" = none := by
  refine ⟨owner_resolves, ?_, ?_, rfl, base_view, by rfl, by rfl, by rfl⟩
  · intro g hg n
    simp only [ownSpecs, List.mem_cons, List.not_mem_nil, or_false] at hg
    rcases hg with rfl | rfl <;> exact notV _ (by decide) n
  · intro g hg
    simp only [ownSpecs, List.mem_cons, List.not_mem_nil, or_false] at hg
    rcases hg with rfl | rfl <;> exact .inl rfl

/-- The files of `both` define `x` once (see `own_definition_refuted`), and so does a registry without the metric. -/
example : ∃ x, (mk (urlOf "alone" 1) false bothSpecs [] [base] [base]).schema.offers "x" = some (x, urlOf "alone" 1) ∧
    x.brief = "mine" := ⟨_, rfl, rfl⟩

/-! ### Other limits -/

/-- A group with `extends` of a dependency's metric and `include_groups` of a group that refers to its attribute. -/
def mixed : Node := mk (urlOf "mixed" 1) false
  [{ id := "loc", attrs := [⟨.ref "x" { note := some "for mixed" }, none⟩] },
   { id := "metric.p", type := .metric, metricName := some "p", ext := some "metric.m", includes := ["loc"] }] [] [base] [base]

theorem mixed_resolves : Resolves exLe exGlob mixed := mk_resolves (by simp [base_resolves]) (by simp [base_resolves]) rfl

/-- C176 is false without `NoMix`, even without imports: what the reference of the included group overrides becomes a
definition of the registry. -/
theorem attribute_of_mixed_refuted : ∃ (le : Attr → Attr → Bool) (glob : String → String → Bool) (n : Node) (k : String)
    (a : Attr) (u : SchemaUrl), TotalPre le ∧ Resolves le glob n ∧ (∀ m, Below m n → ImportsNothing m) ∧
      n.schema.offers k = some (a, u) ∧ ¬ ∃ m, Below m n ∧ Declares m k ∧ ∃ u', m.schema.offers k = some (a, u') := by
  have below : ∀ P : Node → Prop, P base → P mixed → ∀ m, Below m mixed → P m := by
    intro P h h' m hm
    rcases below_mk hm with rfl | ⟨d, hd, hb⟩
    · exact h'
    · simp only [List.cons_append, List.nil_append, List.mem_cons, List.not_mem_nil, or_false, or_self] at hd
      subst hd
      exact below_base h m hb
  have hv : view (mixed.schema.offers "x") = some ("the base", "for mixed", urlOf "mixed" 1) := by rfl
  obtain ⟨a, ho, _, hnote⟩ := view_some hv
  refine ⟨exLe, exGlob, mixed, "x", a, _, exLe_totalPre, mixed_resolves, below _ ⟨rfl, rfl⟩ ⟨rfl, rfl⟩, ho, ?_⟩
  rintro ⟨m, hb, hd, u', ho⟩
  refine below (fun m => Declares m "x" → m.schema.offers "x" = some (a, u') → False) ?_ ?_ m hb hd ho
  · intro _ ho
    obtain ⟨b, hb, _, hn⟩ := view_some base_view
    rw [ho] at hb
    injection hb with hb
    injection hb with hb
    rw [← hb, hnote] at hn
    exact absurd hn (by decide)
  · intro hd _
    exact refers_only { id := "loc", attrs := [⟨.ref "x" { note := some "for mixed" }, none⟩] } "x" _ rfl rfl _
      (by
        intro h hh
        simp only [List.mem_cons, List.not_mem_nil, or_false] at hh
        rcases hh with rfl | rfl
        · exact .inl rfl
        · exact .inr rfl) "x" hd

def base2 : Node := mk (urlOf "base" 2) false
  [{ id := "registry.x", attrs := [⟨.id "x" { type := "string", brief := some "the new base" }, none⟩] }] [] [] []
def overBoth : Node := mk (urlOf "o" 1) false
  [{ id := "metric.o", type := .metric, metricName := some "o", attrs := [⟨.ref "x" {}, none⟩] }] [] [base, base2] [base, base2]

theorem base2_resolves : Resolves exLe exGlob base2 := mk_resolves (by simp) (by simp) rfl
theorem overBoth_resolves : Resolves exLe exGlob overBoth :=
  mk_resolves (by simp [base_resolves, base2_resolves]) (by simp [base_resolves, base2_resolves]) rfl

/-- C177 is false when two versions of a registry are around: the attribute is that of the newer version, under the URL of
the older. -/
theorem origin_of_chain_refuted : ∃ (le : Attr → Attr → Bool) (glob : String → String → Bool) (n : Node) (k : String)
    (a : Attr) (u : SchemaUrl), TotalPre le ∧ Resolves le glob n ∧ (∀ m, Below m n → ImportsNothing m) ∧
      (∀ m, Below m n → FromFiles m) ∧ n.schema.offers k = some (a, u) ∧
      (∃ m, Below m n ∧ Declares m k ∧ ∃ u', m.schema.offers k = some (a, u')) ∧
      ∀ m, Below m n → m.url = u → ¬ ∃ u', m.schema.offers k = some (a, u') := by
  have below : ∀ P : Node → Prop, P base → P base2 → P overBoth → ∀ m, Below m overBoth → P m := by
    intro P h h1 h' m hm
    have b2 : Below m base2 → P m := by
      intro hm
      rcases below_mk hm with rfl | ⟨d, hd, _⟩
      · exact h1
      · cases hd
    rcases below_mk hm with rfl | ⟨d, hd, hb⟩
    · exact h'
    · simp only [List.cons_append, List.nil_append, List.mem_cons, List.not_mem_nil, or_false] at hd
      rcases hd with rfl | rfl | rfl | rfl
      · exact below_base h m hb
      · exact b2 hb
      · exact below_base h m hb
      · exact b2 hb
  have hv : view (overBoth.schema.offers "x") = some ("the new base", "", urlOf "base" 1) := by rfl
  obtain ⟨a, ho, hbrief, _⟩ := view_some hv
  have hsame : base2.schema.offers "x" = some (a, urlOf "base" 2) := by
    have h1 : (base2.schema.offers "x").map Prod.fst = (overBoth.schema.offers "x").map Prod.fst := by rfl
    have h2 : (base2.schema.offers "x").map Prod.snd = some (urlOf "base" 2) := by rfl
    rw [ho] at h1
    generalize base2.schema.offers "x" = o at h1 h2
    cases o with
    | none => cases h1
    | some p =>
      injection h1 with h1
      injection h2 with h2
      obtain ⟨p1, p2⟩ := p
      dsimp only at h1 h2
      rw [h1, h2]
  refine ⟨exLe, exGlob, overBoth, "x", a, _, exLe_totalPre, overBoth_resolves, below _ ⟨rfl, rfl⟩ ⟨rfl, rfl⟩ ⟨rfl, rfl⟩,
    below _ trivial trivial trivial, ho, ⟨base2, .dep _ _ _ _ _ _ _ _ base2 (by simp) .self, ?_, _, hsame⟩, ?_⟩
  · exact .inl ⟨_, List.mem_cons_self, _, List.mem_cons_self, "x", _, rfl, rfl⟩
  · intro m hm hu
    rintro ⟨u', ho⟩
    refine below (fun m => m.url = urlOf "base" 1 → m.schema.offers "x" = some (a, u') → False) ?_ ?_ ?_ m hm hu ho
    · intro _ ho
      obtain ⟨b, hb, hn, _⟩ := view_some base_view
      rw [ho] at hb
      injection hb with hb
      injection hb with hb
      rw [← hb, hbrief] at hn
      exact absurd hn (by decide)
    · intro h _
      exact absurd (congrArg SchemaUrl.tail h) (by decide)
    · intro h _
      exact absurd (congrArg SchemaUrl.name h) (by decide)

end Verif.Chain
