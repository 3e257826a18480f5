import Verif.Advice.ReportProps
/-
C237-C240, C242: badly formed names, colliding namespaces, extended namespaces, attributes nothing is said about, and the
entity definitions policies can read.
-/
namespace Verif.Advice
open Verif.Util Verif.LiveCheck Verif.Semconv

/-! ### C237: badly formed names -/

/-- C237. Unless a template of the registry begins the name, an attribute is reported exactly if its name is badly formed. -/
theorem format_reported_partial (r : Registry) (a : SAttr) (ht : ¬ Templated r a.name) :
    (∃ f ∈ says r (.attribute a), f.id = "invalid_format") ↔ ¬ ValidName a.name.toList := by
  simp only [attribute_findings]
  constructor
  · rintro ⟨f, hf, hid⟩
    cases hf with
    | format h _ => exact h
    | missing | illegal | extend => simp [makeAdvice] at hid
  · exact fun h => ⟨_, .format h ht, rfl⟩

/-- C237. A metric is reported exactly if its name is badly formed, once and with its name. -/
theorem metric_format (r : Registry) (m : Metric) :
    (ValidName m.name.toList → says r (.metric m) = []) ∧
    (¬ ValidName m.name.toList → ∃ f, says r (.metric m) = [f] ∧ f.id = "invalid_format" ∧ f.level = .violation ∧
      f.ctx = [("metric_name", .text m.name)] ∧ f.signalName = some m.name) := by
  have e : says r (.metric m) = invalidMetric m.name := rfl
  rw [e, ← nameOk_iff]
  unfold invalidMetric
  constructor
  · intro h; rw [if_pos h]
  · intro h; rw [if_neg h]; exact ⟨_, rfl, rfl, rfl, rfl, rfl⟩

/-- A registry with these attributes, and with templates of these names. -/
def reg (attrs templates : List String) : Registry :=
  .v2 { attributes := attrs.map (fun n => { name := n, typ := .prim .string })
          ++ templates.map (fun n => { name := n, typ := .template .string }) } []

/-- C237. A badly formed name is not reported if it begins with the letters of a template, although it is no instance of the
template: those have a dot after its name. -/
theorem format_refuted : ∃ (r : Registry) (a : SAttr), ¬ ValidName a.name.toList ∧
    (∀ d ∈ r.attrDefs, ¬ NamespaceOf d.name a.name) ∧ says r (.attribute a) = [] := by
  refine ⟨reg [] ["http.header"], { name := "http.headerX!" }, ?_, ?_, by decide +kernel⟩
  · rw [← nameOk_iff]; decide +kernel
  · intro d hd
    rw [show (reg [] ["http.header"]).attrDefs = [{ name := "http.header", typ := .template .string }] from rfl] at hd
    rw [List.mem_singleton.1 hd, ← mem_prefixes]
    decide +kernel

/-- C237. Names of events are not checked. -/
theorem event_format_refuted : ∃ l : Log, ¬ ValidName l.eventName.toList ∧ ∀ r, says r (.log l) = [] := by
  refine ⟨{ eventName := "Not a Name!", attrs := [] }, ?_, fun _ => rfl⟩
  rw [← nameOk_iff]; decide +kernel

/-- C237. The kind of names. -/
example : nameOk "http.request.status_code" = true ∧ nameOk "Http.request" = false ∧ nameOk "http..request" = false ∧
    nameOk "http.2xx" = true ∧ nameOk "2xx" = false ∧ nameOk "http_" = false ∧ nameOk "" = false := by decide +kernel

/-! ### C238: colliding namespaces -/

/-- C238. An attribute is reported for a namespace exactly if it is a namespace of its name and the registry has an attribute
of that name that is not deprecated. -/
theorem collision_reported (r : Registry) (a : SAttr) (ns : String) :
    (∃ f ∈ says r (.attribute a), f.id = "illegal_namespace" ∧ f.level = .violation ∧
      f.ctx = [("attribute_key", .text a.name), ("namespace", .text ns)]) ↔ NamespaceOf ns a.name ∧ Live r ns := by
  simp only [attribute_findings]
  constructor
  · rintro ⟨f, hf, hid, -, hc⟩
    cases hf with
    | illegal ns' h hl =>
      simp only [makeAdvice, List.cons.injEq, Prod.mk.injEq, CtxVal.text.injEq, true_and, and_true] at hc
      subst hc; exact ⟨h, hl⟩
    | missing | format | extend => simp [makeAdvice] at hid
  · exact fun h => ⟨_, .illegal ns h.1 h.2, rfl, rfl, rfl⟩

/-- C238. Of an attribute the registry has, no namespace is reported exactly if the registry keeps apart attributes and
namespaces. -/
theorem no_collision_iff (r : Registry) :
    (∀ a : SAttr, Known r a.name → ¬ ∃ f ∈ says r (.attribute a), f.id = "illegal_namespace") ↔
      ∀ n ns, Known r n → NamespaceOf ns n → ¬ Live r ns := by
  constructor
  · intro h n ns hk hn hl
    obtain ⟨f, hf, hid, -, -⟩ := (collision_reported r { name := n } ns).2 ⟨hn, hl⟩
    exact h { name := n } hk ⟨f, hf, hid⟩
  · rintro h a hk ⟨f, hf, hid⟩
    rw [attribute_findings] at hf
    cases hf with
    | illegal ns hn hl => exact h _ ns hk hn hl
    | missing | format | extend => simp [makeAdvice] at hid

/-- C238. The message calls the name of the sample an existing attribute; it need not exist, and the attribute it collides with
is the other one. -/
theorem collision_message_refuted : ∃ (r : Registry) (a : SAttr), ¬ Known r a.name ∧
    ∃ f ∈ says r (.attribute a), f.message = "Namespace 'http.request' collides with existing attribute '" ++ a.name ++ "'" := by
  refine ⟨reg ["http.request"] [], { name := "http.request.method" }, ?_, ?_⟩
  · rw [← mem_attributes]; decide +kernel
  · refine ⟨collision "http.request.method" "http.request", ?_, rfl⟩
    decide +kernel

/-- C238. An attribute whose name is a namespace of an attribute of the registry collides too, but nothing is said. -/
theorem reverse_collision_refuted : ∃ (r : Registry) (a : SAttr) (n : String), Live r n ∧ NamespaceOf a.name n ∧
    says r (.attribute { name := n }) = [] ∧ ∀ f ∈ says r (.attribute a), f.level ≠ .violation := by
  refine ⟨reg ["http.request.method"] [], { name := "http.request" }, "http.request.method", ?_, ?_, by decide +kernel,
    by decide +kernel⟩
  · rw [← mem_live]; decide +kernel
  · exact ⟨"method".toList, by decide +kernel⟩

/-! ### C239: extended namespaces -/

open Classical in
/-- C239. An attribute the registry does not have, and that is of no template, in a namespace of the registry is reported, with
the deepest such namespace. -/
theorem extends_reported_partial (r : Registry) (a : SAttr) (hn : ¬ Known r a.name) (ht : ¬ Templated r a.name) {ns : String}
    (h : NamespaceOf ns a.name) (hk : KnownNamespace r ns) :
    ∃ ns', NamespaceOf ns' a.name ∧ KnownNamespace r ns' ∧ ns.toList <+: ns'.toList ∧
      (∀ x, NamespaceOf x a.name → KnownNamespace r x → x.toList <+: ns'.toList) ∧
      ∃ f ∈ says r (.attribute a), f.id = "extends_namespace" ∧ f.level = .information ∧
        f.ctx = [("attribute_key", .text a.name), ("namespace", .text ns')] := by
  have hmem : ∀ x, x ∈ (prefixes a.name).filter (fun x => decide (KnownNamespace r x)) ↔
      NamespaceOf x a.name ∧ KnownNamespace r x := by
    intro x; rw [List.mem_filter, mem_prefixes, decide_eq_true_eq]
  have hpw := (prefixes_sorted a.name).filter (fun x => decide (KnownNamespace r x))
  cases hl : ((prefixes a.name).filter (fun x => decide (KnownNamespace r x))).getLast? with
  | none =>
    rw [List.getLast?_eq_none_iff] at hl
    have := (hmem ns).2 ⟨h, hk⟩
    rw [hl] at this; cases this
  | some ns' =>
    have hm := (hmem ns').1 (List.mem_of_getLast? hl)
    have hmax := getLast?_max (R := fun a b : String => a.toList <+: b.toList) (fun _ => List.prefix_rfl) hpw hl
    have hall : ∀ x, NamespaceOf x a.name → KnownNamespace r x → x.toList <+: ns'.toList :=
      fun x h1 h2 => hmax x ((hmem x).2 ⟨h1, h2⟩)
    exact ⟨ns', hm.1, hm.2, hall ns h hk, hall, _, (attribute_findings r a _).2 (.extend ns' hm.1 hm.2 hn ht hall), rfl, rfl, rfl⟩

/-- C239. Only such attributes are reported, and once. -/
theorem extends_only (r : Registry) (a : SAttr) {f : Finding} (hf : f ∈ says r (.attribute a)) (hid : f.id = "extends_namespace") :
    ¬ Known r a.name ∧ ¬ Templated r a.name ∧ (∃ ns, NamespaceOf ns a.name ∧ KnownNamespace r ns) ∧
    ∀ g ∈ says r (.attribute a), g.id = "extends_namespace" → g = f := by
  have key : ∀ g ∈ says r (.attribute a), g.id = "extends_namespace" → ∃ ns, NamespaceOf ns a.name ∧ KnownNamespace r ns ∧
      ¬ Known r a.name ∧ ¬ Templated r a.name ∧
      (∀ ns', NamespaceOf ns' a.name → KnownNamespace r ns' → ns'.toList <+: ns.toList) ∧
      g = makeAdvice "extends_namespace" .information [("attribute_key", .text a.name), ("namespace", .text ns)]
        ("Attribute key '" ++ a.name ++ "' collides with existing namespace '" ++ ns ++ "'") := by
    intro g hg hid
    rw [attribute_findings] at hg
    cases hg with
    | extend ns h hk hn ht hd => exact ⟨ns, h, hk, hn, ht, hd, rfl⟩
    | missing | format | illegal => simp [makeAdvice] at hid
  obtain ⟨ns, h, hk, hn, ht, hd, rfl⟩ := key f hf hid
  refine ⟨hn, ht, ⟨ns, h, hk⟩, ?_⟩
  intro g hg hid
  obtain ⟨ns', h', hk', -, -, hd', rfl⟩ := key g hg hid
  have : ns' = ns := String.toList_inj.1 ((hd ns' h' hk').eq_of_length_le (hd' ns h hk).length_le)
  rw [this]

/-- C239. A namespace in which the registry only has templates is not known. -/
theorem extends_refuted : ∃ (r : Registry) (a : SAttr) (d : AttrDef), d ∈ r.attrDefs ∧ NamespaceOf "http.request" d.name ∧
    NamespaceOf "http.request" a.name ∧ ¬ Known r a.name ∧ ¬ Templated r a.name ∧ says r (.attribute a) = [] := by
  refine ⟨reg [] ["http.request.header"], { name := "http.request.size" },
    { name := "http.request.header", typ := .template .string }, ?_, ⟨"header".toList, by decide +kernel⟩,
    ⟨"size".toList, by decide +kernel⟩, ?_, ?_, by decide +kernel⟩
  · exact List.mem_singleton.2 rfl
  · rw [← mem_attributes]; decide +kernel
  · rw [← templated_iff]; decide +kernel

/-- C239. The deepest namespace is named. -/
example : (says (reg ["http.request.method"] []) (.attribute { name := "http.request.size" })).map (·.ctx)
    = [[("attribute_key", .text "http.request.size"), ("namespace", .text "http.request")]] := by decide +kernel

/-! ### C240: nothing to say -/

/-- C240. Nothing is said about an attribute exactly if its name has a namespace and is well-formed or of a template, no
namespace of it is an attribute that is not deprecated, and the registry has it, or a template of it, or none of its
namespaces. -/
theorem nothing_said (r : Registry) (a : SAttr) :
    says r (.attribute a) = [] ↔
      (∃ ns, NamespaceOf ns a.name) ∧ (ValidName a.name.toList ∨ Templated r a.name) ∧
      (∀ ns, NamespaceOf ns a.name → ¬ Live r ns) ∧
      (Known r a.name ∨ Templated r a.name ∨ ∀ ns, NamespaceOf ns a.name → ¬ KnownNamespace r ns) := by
  rw [List.eq_nil_iff_forall_not_mem]
  simp only [attribute_findings]
  constructor
  · intro h
    refine ⟨?_, ?_, ?_, ?_⟩
    · exact Classical.byContradiction fun hn => h _ (.missing fun ns hns => hn ⟨ns, hns⟩)
    · exact Classical.byContradiction fun hn => h _ (.format (fun hv => hn (.inl hv)) fun ht => hn (.inr ht))
    · exact fun ns hns hl => h _ (.illegal ns hns hl)
    · refine Classical.byContradiction fun hn => ?_
      have hk : ¬ Known r a.name := fun x => hn (.inl x)
      have ht : ¬ Templated r a.name := fun x => hn (.inr (.inl x))
      refine hn (.inr (.inr fun ns hns hkn => ?_))
      obtain ⟨ns', -, -, -, -, f, hf, -⟩ := extends_reported_partial r a hk ht hns hkn
      exact h f ((attribute_findings r a f).1 hf)
  · rintro ⟨⟨ns, hns⟩, h2, h3, h4⟩ f hf
    cases hf with
    | missing h => exact h ns hns
    | format h ht => exact h2.elim h ht
    | illegal ns h hl => exact h3 ns h hl
    | extend ns h hk hn ht _ => exact h4.elim hn fun x => x.elim ht fun x => x ns h hk

/-- C240. Nothing is said about any attribute of a registry whose names are well-formed, have a namespace and are no namespaces
of each other. -/
theorem registry_clean (r : Registry)
    (h : ∀ n, Known r n → ValidName n.toList ∧ (∃ ns, NamespaceOf ns n) ∧ ∀ ns, NamespaceOf ns n → ¬ Known r ns) (a : SAttr)
    (ha : Known r a.name) : says r (.attribute a) = [] := by
  obtain ⟨h1, h2, h3⟩ := h a.name ha
  refine (nothing_said r a).2 ⟨h2, .inl h1, fun ns hns hl => h3 ns hns ?_, .inl ha⟩
  obtain ⟨d, hd, -⟩ := hl
  exact (known_iff r ns).2 ⟨d, hd⟩

/-- C240. There are such registries. -/
example : says (reg ["http.request.method", "http.route"] []) (.attribute { name := "http.route" }) = [] := by decide +kernel

/-! ### C242: entity definitions -/

/-- A key has one value. -/
def OneValue {V : Type} (l : List (String × V)) : Prop := ∀ x ∈ l, ∀ y ∈ l, x.1 = y.1 → x.2 = y.2

theorem aget_fold {V W : Type} (f : V → W) (l : List (String × V)) (h : OneValue l) (k : String) (m : List (String × W)) :
    aget k (l.foldl (fun m q => aset q.1 (f q.2) m) m) =
      (((l.find? fun q => q.1 = k).map fun q => f q.2).or (aget k m)) := by
  induction l generalizing m with
  | nil => simp
  | cons p l ih =>
    rw [List.foldl_cons, ih (fun x hx y hy => h x (List.mem_cons_of_mem _ hx) y (List.mem_cons_of_mem _ hy)), aget_aset,
      List.find?_cons]
    by_cases hk : p.1 = k
    · subst hk
      simp only [decide_true]
      cases hf : l.find? fun q => decide (q.1 = p.1) with
      | none => simp
      | some q =>
        have hm := List.mem_of_find?_eq_some hf
        have he := List.find?_some hf
        simp only [decide_eq_true_eq] at he
        have := h q (List.mem_cons_of_mem _ hm) p List.mem_cons_self he
        simp [this]
    · have hk' : ¬ k = p.1 := fun e => hk e.symm
      simp [hk, hk']

/-- The definitions of a registry by type, and those of the refinements by id. -/
def V2Part.entries (p : V2Part) : List (String × Entity) := p.entities.map (fun e => (e.type, e)) ++ p.entityRefinements

theorem entityTable_get (p : V2Part) (h : OneValue (V2Part.entries p)) (t : String) :
    aget t (entityTable p) = p.definedEntity t := by
  have := aget_fold (fun e : Entity => e) (V2Part.entries p) h t []
  unfold entityTable V2Part.definedEntity
  unfold V2Part.entries at this
  rw [this, List.find?_append, List.find?_map]
  cases h1 : List.find? (fun e : Entity => decide (e.type = t)) p.entities with
  | none =>
    have : List.find? ((fun q : String × Entity => decide (q.1 = t)) ∘ fun e => (e.type, e)) p.entities = none := h1
    rw [this]
    cases h2 : List.find? (fun q : String × Entity => decide (q.1 = t)) p.entityRefinements <;> simp [aget]
  | some e =>
    have : List.find? ((fun q : String × Entity => decide (q.1 = t)) ∘ fun e => (e.type, e)) p.entities = some e := h1
    rw [this]
    rfl

/-- C242. If no two registries have the same schema URL and in a registry no two definitions the same type or id, then policies
read the definition the live check uses. -/
theorem entity_data_partial (url : String) (p : V2Part) (deps : List (String × V2Part))
    (hu : ((deps ++ [(url, p)]).map (·.1)).Nodup) (ho : ∀ d ∈ deps ++ [(url, p)], OneValue (V2Part.entries d.2)) (type : String)
    (source : Option String) (hs : source ≠ some url) :
    dataEntity url p deps type source = lookupV2 p deps type source := by
  have hone : OneValue (deps ++ [(url, p)]) := by
    intro x hx y hy hxy
    have h1 := aget_of_mem_nodup (k := x.1) (v := x.2) hu hx
    have h2 := aget_of_mem_nodup (k := y.1) (v := y.2) hu hy
    rw [hxy, h2] at h1
    exact (Option.some.inj h1).symm
  unfold dataEntity entityTables
  rw [aget_fold entityTable _ hone]
  rw [List.find?_append]
  have hurl : deps.find? (fun q => decide (q.1 = url)) = none := by
    rw [List.find?_eq_none]
    intro q hq
    rw [List.map_append, List.nodup_append] at hu
    have := hu.2.2 q.1 (List.mem_map.2 ⟨q, hq, rfl⟩) url (by simp)
    simpa using this
  cases source with
  | none =>
    rw [show (none : Option String).getD url = url from rfl, hurl]
    simp only [List.find?_cons, decide_true, Option.none_or, Option.map_some, Option.some_or, Option.bind_some]
    exact entityTable_get p (ho (url, p) (by simp)) type
  | some u =>
    have hne : ¬ url = u := fun e => hs (by rw [e])
    rw [show (some u).getD url = u from rfl]
    unfold lookupV2
    simp only []
    cases hf : deps.find? (fun q => decide (q.1 = u)) with
    | none => simp [hne, aget]
    | some d =>
      simp only [Option.some_or, Option.map_some, Option.bind_some]
      exact entityTable_get d.2 (ho d (List.mem_append_left _ (List.mem_of_find?_eq_some hf))) type

/-- C242. A refinement with the id of an entity hides that entity from the policies. -/
theorem entity_data_refuted : ∃ (p : V2Part) (type : String),
    (p.entities.map (·.type)).Nodup ∧ (p.entityRefinements.map (·.1)).Nodup ∧
    dataEntity "u" p [] type none ≠ lookupV2 p [] type none := by
  refine ⟨{ entities := [⟨"host", [{ name := "host.id", typ := .prim .string }]⟩, ⟨"vm", []⟩],
            entityRefinements := [("host", ⟨"vm", []⟩)] }, "host", ?_, ?_, ?_⟩ <;> decide +kernel

/-- C242. Of two dependencies with the same schema URL the policies read the last, the live check reads the first; a dependency
with the URL of the registry cannot be read by policies. -/
theorem entity_urls_refuted :
    (∃ (deps : List (String × V2Part)) (type source : String), source ≠ "u" ∧
      dataEntity "u" {} deps type (some source) ≠ lookupV2 {} deps type (some source)) ∧
    (∃ (deps : List (String × V2Part)) (type : String), (deps.map (·.1)).Nodup ∧
      dataEntity "u" {} deps type (some "u") ≠ lookupV2 {} deps type (some "u")) := by
  constructor
  · exact ⟨[("d", { entities := [⟨"host", []⟩] }), ("d", {})], "host", "d", by decide, by decide +kernel⟩
  · exact ⟨[("u", { entities := [⟨"host", []⟩] })], "host", by decide, by decide +kernel⟩

/-- C242. What the partial theorem asks for is possible. -/
example : dataEntity "u" { entities := [⟨"host", []⟩] } [("d", { entities := [⟨"vm", []⟩], entityRefinements := [("vm.x", ⟨"vm", []⟩)] })]
    "vm.x" (some "d") = some ⟨"vm", []⟩ := by decide +kernel

end Verif.Advice
