import Verif.Advice.Props
/-
C237-C242: the findings of the default policy, and where the advisor fills them in.
-/
namespace Verif.Advice
open Verif.Util Verif.LiveCheck

/-! ### What the data is -/

theorem addAttr_nodup {c : Checker} (h : (c.attributes.map (·.1)).Nodup) (a : AttrDef) :
    ((c.addAttr a).attributes.map (·.1)).Nodup := by
  unfold Checker.addAttr
  split
  · exact h
  · exact nodup_aset h

theorem foldl_addAttr_nodup (l : List AttrDef) {c : Checker} (h : (c.attributes.map (·.1)).Nodup) :
    ((l.foldl Checker.addAttr c).attributes.map (·.1)).Nodup := by
  induction l generalizing c with
  | nil => exact h
  | cons a l ih => exact ih (addAttr_nodup h a)

theorem new_nodup (r : Registry) : ((Checker.new r).attributes.map (·.1)).Nodup := by
  cases r with
  | v1 groups =>
    have h := congrArg Prod.fst (foldl_addGroup_parts groups { registry := .v1 groups })
    have h' : (groups.foldl Checker.addGroup { registry := .v1 groups }).attributes =
      ((groups.flatMap fun g => g.signal.attrs).foldl Checker.addAttr { registry := .v1 groups }).attributes := h
    show ((groups.foldl Checker.addGroup { registry := .v1 groups }).attributes.map (·.1)).Nodup
    rw [h']
    exact foldl_addAttr_nodup _ (by simp)
  | v2 p deps =>
    unfold Checker.new
    dsimp only
    exact foldl_addAttr_nodup _ (by simp)

theorem current_iff (r : Registry) (n : String) (d : AttrDef) :
    Current r n d ↔ aget n (Checker.new r).attributes = some d := by
  have := (new_parts r).1 n
  unfold Checker.findAttribute at this
  unfold Current
  rw [this]

theorem known_iff (r : Registry) (n : String) : Known r n ↔ ∃ d, Current r n d := by
  unfold Known Current
  constructor
  · rintro ⟨d, hd, ht, hn⟩
    cases h : (r.attrDefs.filter fun d => !d.typ.isTemplate && decide (d.name = n)).getLast? with
    | some x => exact ⟨x, rfl⟩
    | none =>
      rw [List.getLast?_eq_none_iff, List.filter_eq_nil_iff] at h
      exact absurd (by simp [ht, hn]) (h d hd)
  · rintro ⟨d, hd⟩
    have hm := List.mem_of_getLast? hd
    rw [List.mem_filter] at hm
    simp at hm
    exact ⟨d, hm.1, hm.2.1, hm.2.2⟩

theorem mem_attributes (r : Registry) (n : String) : n ∈ (advise (Checker.new r)).attributes ↔ Known r n := by
  show n ∈ (Checker.new r).attributes.map Prod.fst ↔ _
  rw [mem_keys_iff, known_iff]
  simp only [current_iff]

theorem mem_live (r : Registry) (n : String) :
    (n ∈ (advise (Checker.new r)).attributes ∧ ¬ n ∈ (advise (Checker.new r)).deprecated) ↔ Live r n := by
  rw [mem_attributes, known_iff]
  show ((∃ d, Current r n d) ∧ ¬ n ∈ ((Checker.new r).attributes.filter fun p => p.2.deprecated.isSome).map (·.1)) ↔ _
  unfold Live
  constructor
  · rintro ⟨⟨d, hd⟩, hn⟩
    refine ⟨d, hd, ?_⟩
    cases hdep : d.deprecated with
    | none => rfl
    | some x =>
      refine absurd (List.mem_map.2 ⟨(n, d), ?_, rfl⟩) hn
      refine List.mem_filter.2 ⟨aget_some_mem ((current_iff r n d).1 hd), ?_⟩
      simp [hdep]
  · rintro ⟨d, hd, hdep⟩
    refine ⟨⟨d, hd⟩, ?_⟩
    rw [List.mem_map]
    rintro ⟨⟨k, v⟩, hm, rfl⟩
    obtain ⟨hm, hv⟩ := List.mem_filter.1 hm
    have := aget_of_mem_nodup (new_nodup r) hm
    have e := ((current_iff r k d).1 hd).symm.trans this
    cases e
    simp [hdep] at hv

theorem templated_iff (r : Registry) (n : String) : isTemplateType (advise (Checker.new r)) n = true ↔ Templated r n := by
  unfold isTemplateType advise Templated
  dsimp only
  rw [(new_parts r).2, List.any_eq_true]
  constructor
  · rintro ⟨t, ht, hp⟩
    obtain ⟨x, hx, rfl⟩ := List.mem_map.1 ht
    rw [mem_sortBy] at hx
    obtain ⟨d, hd, rfl⟩ := List.mem_map.1 hx
    obtain ⟨h1, h2⟩ := List.mem_filter.1 hd
    exact ⟨d, h1, h2, List.isPrefixOf_iff_prefix.1 hp⟩
  · rintro ⟨d, h1, h2, h3⟩
    refine ⟨d.name, List.mem_map.2 ⟨(d.name, d), ?_, rfl⟩, List.isPrefixOf_iff_prefix.2 h3⟩
    rw [mem_sortBy]
    exact List.mem_map.2 ⟨d, List.mem_filter.2 ⟨h1, h2⟩, rfl⟩

theorem namespaces_eq (c : Checker) : (advise c).namespaces = c.attributes.flatMap fun p => prefixes p.1 := rfl

theorem mem_namespaces (r : Registry) (ns : String) : ns ∈ (advise (Checker.new r)).namespaces ↔ KnownNamespace r ns := by
  unfold KnownNamespace
  rw [namespaces_eq, List.mem_flatMap]
  constructor
  · rintro ⟨p, hp, h⟩
    exact ⟨p.1, (mem_attributes r p.1).1 (List.mem_map.2 ⟨p, hp, rfl⟩), (mem_prefixes _ _).1 h⟩
  · rintro ⟨n, hn, h⟩
    obtain ⟨p, hp, rfl⟩ := List.mem_map.1 ((mem_attributes r n).2 hn)
    exact ⟨p, hp, (mem_prefixes _ _).2 h⟩

/-! ### The findings about an attribute -/

/-- What the policy may say about an attribute of the name `n`. -/
inductive Says (r : Registry) (n : String) : Finding → Prop where
  | missing (h : ∀ ns, ¬ NamespaceOf ns n) : Says r n (makeAdvice "missing_namespace" .improvement [("attribute_key", .text n)]
      ("Attribute key '" ++ n ++ "' must include a namespace (e.g. '{namespace}.{attribute_key}')"))
  | format (h : ¬ ValidName n.toList) (ht : ¬ Templated r n) : Says r n (makeAdvice "invalid_format" .violation
      [("attribute_key", .text n)] ("Attribute key '" ++ n ++ "' does not match name formatting rules."))
  | illegal (ns : String) (h : NamespaceOf ns n) (hl : Live r ns) : Says r n (makeAdvice "illegal_namespace" .violation
      [("attribute_key", .text n), ("namespace", .text ns)]
      ("Namespace '" ++ ns ++ "' collides with existing attribute '" ++ n ++ "'"))
  | extend (ns : String) (h : NamespaceOf ns n) (hk : KnownNamespace r ns) (hn : ¬ Known r n) (ht : ¬ Templated r n)
      (hd : ∀ ns', NamespaceOf ns' n → KnownNamespace r ns' → ns'.toList <+: ns.toList) :
      Says r n (makeAdvice "extends_namespace" .information [("attribute_key", .text n), ("namespace", .text ns)]
        ("Attribute key '" ++ n ++ "' collides with existing namespace '" ++ ns ++ "'"))

theorem getLast?_max {α : Type} {R : α → α → Prop} {l : List α} (hr : ∀ a, R a a) (h : l.Pairwise R) {x : α}
    (hx : l.getLast? = some x) : ∀ y ∈ l, R y x := by
  obtain ⟨i, rfl⟩ := List.getLast?_eq_some_iff.1 hx
  intro y hy
  rcases List.mem_append.1 hy with hy | hy
  · exact (List.pairwise_append.1 h).2.2 y hy x (by simp)
  · rw [List.mem_singleton.1 hy]; exact hr x

/-- C237, C238, C239. The policy says exactly this about an attribute. -/
theorem attribute_findings (r : Registry) (a : SAttr) (f : Finding) : f ∈ says r (.attribute a) ↔ Says r a.name f := by
  unfold says deny
  simp only [List.mem_append]
  have e1 : f ∈ missingNamespace a.name ↔ (∀ ns, ¬ NamespaceOf ns a.name) ∧ f = makeAdvice "missing_namespace" .improvement
      [("attribute_key", .text a.name)]
      ("Attribute key '" ++ a.name ++ "' must include a namespace (e.g. '{namespace}.{attribute_key}')") := by
    unfold missingNamespace
    have := hasDot_iff a.name
    split
    · rename_i h
      obtain ⟨ns, hns⟩ := this.1 h
      exact ⟨nofun, fun h => absurd hns (h.1 ns)⟩
    · rename_i h
      rw [List.mem_singleton]
      exact ⟨fun e => ⟨fun ns hns => h (this.2 ⟨ns, hns⟩), e⟩, fun e => e.2⟩
  have e2 : f ∈ invalidFormat (advise (Checker.new r)) a.name ↔ ¬ ValidName a.name.toList ∧ ¬ Templated r a.name ∧
      f = makeAdvice "invalid_format" .violation
      [("attribute_key", .text a.name)] ("Attribute key '" ++ a.name ++ "' does not match name formatting rules.") := by
    unfold invalidFormat
    have h1 := templated_iff r a.name
    have h2 := nameOk_iff a.name
    split
    · rename_i h
      rw [Bool.or_eq_true, h1, h2] at h
      refine ⟨nofun, fun ⟨h3, h4, _⟩ => ?_⟩
      rcases h with h | h
      · exact absurd h h4
      · exact absurd h h3
    · rename_i h
      rw [Bool.or_eq_true, h1, h2] at h
      rw [List.mem_singleton]
      exact ⟨fun e => ⟨fun hv => h (.inr hv), fun ht => h (.inl ht), e⟩, fun e => e.2.2⟩
  have e3 : f ∈ illegalNamespace (advise (Checker.new r)) a.name ↔
      ∃ ns, NamespaceOf ns a.name ∧ Live r ns ∧ f = collision a.name ns := by
    unfold illegalNamespace
    have hd := hasDot_iff a.name
    split
    · rw [List.mem_map]
      constructor
      · rintro ⟨ns, hns, rfl⟩
        obtain ⟨h1, h2⟩ := List.mem_filter.1 hns
        rw [derive_eq] at h1
        simp only [Bool.and_eq_true, Bool.not_eq_true', decide_eq_true_eq, decide_eq_false_iff_not] at h2
        exact ⟨ns, (mem_prefixes _ _).1 h1, (mem_live r ns).1 h2, rfl⟩
      · rintro ⟨ns, h1, h2, rfl⟩
        refine ⟨ns, List.mem_filter.2 ⟨?_, ?_⟩, rfl⟩
        · rw [derive_eq]; exact (mem_prefixes _ _).2 h1
        · simp only [Bool.and_eq_true, Bool.not_eq_true', decide_eq_true_eq, decide_eq_false_iff_not]
          exact (mem_live r ns).2 h2
    · rename_i h
      exact ⟨nofun, fun ⟨ns, hns, _⟩ => absurd (hd.2 ⟨ns, hns⟩) h⟩
  have e4 : f ∈ extendsNamespace (advise (Checker.new r)) a.name ↔ ∃ ns, NamespaceOf ns a.name ∧ KnownNamespace r ns ∧
      ¬ Known r a.name ∧ ¬ Templated r a.name ∧
      (∀ ns', NamespaceOf ns' a.name → KnownNamespace r ns' → ns'.toList <+: ns.toList) ∧
      f = makeAdvice "extends_namespace" .information [("attribute_key", .text a.name), ("namespace", .text ns)]
        ("Attribute key '" ++ a.name ++ "' collides with existing namespace '" ++ ns ++ "'") := by
    unfold extendsNamespace
    have hd := hasDot_iff a.name
    have h1 := templated_iff r a.name
    have h2 := mem_attributes r a.name
    have hmem : ∀ ns, ns ∈ (deriveNamespaces a.name).filter
        (fun ns => decide (ns ∈ (advise (Checker.new r)).namespaces)) ↔ NamespaceOf ns a.name ∧ KnownNamespace r ns := by
      intro ns
      rw [List.mem_filter, derive_eq, mem_prefixes, decide_eq_true_eq, mem_namespaces]
    split
    · rename_i h
      simp only [Bool.and_eq_true, Bool.not_eq_true', decide_eq_false_iff_not] at h
      obtain ⟨⟨-, ht⟩, hn⟩ := h
      have hn : ¬ Known r a.name := fun hk => hn (h2.2 hk)
      have ht : ¬ Templated r a.name := fun hk => by rw [h1.2 hk] at ht; cases ht
      cases hl : ((deriveNamespaces a.name).filter
        (fun ns => decide (ns ∈ (advise (Checker.new r)).namespaces))).getLast? with
      | none =>
        rw [List.getLast?_eq_none_iff] at hl
        refine ⟨nofun, fun ⟨ns, hns, hk, _⟩ => ?_⟩
        have := (hmem ns).2 ⟨hns, hk⟩
        rw [hl] at this; cases this
      | some ns =>
        have hm := (hmem ns).1 (List.mem_of_getLast? hl)
        have hpw : (List.filter (fun ns => decide (ns ∈ (advise (Checker.new r)).namespaces))
            (deriveNamespaces a.name)).Pairwise fun a b => a.toList <+: b.toList := by
          rw [derive_eq]; exact (prefixes_sorted a.name).filter _
        have hmax := getLast?_max (R := fun a b : String => a.toList <+: b.toList) (fun _ => List.prefix_rfl) hpw hl
        dsimp only
        rw [List.mem_singleton]
        constructor
        · rintro rfl
          exact ⟨ns, hm.1, hm.2, hn, ht, fun ns' h1 h2 => hmax ns' ((hmem ns').2 ⟨h1, h2⟩), rfl⟩
        · rintro ⟨ns', h1, h2, _, _, h3, rfl⟩
          have p1 := h3 ns hm.1 hm.2
          have p2 := hmax ns' ((hmem ns').2 ⟨h1, h2⟩)
          have : ns = ns' := String.toList_inj.1 (p1.eq_of_length_le p2.length_le)
          rw [this]
    · rename_i h
      refine ⟨nofun, fun ⟨ns, hns, hk, hn, ht, _⟩ => absurd ?_ h⟩
      simp only [Bool.and_eq_true, Bool.not_eq_true', decide_eq_false_iff_not]
      refine ⟨⟨hd.2 ⟨ns, hns⟩, ?_⟩, fun hm => hn (h2.1 hm)⟩
      cases he : isTemplateType (advise (Checker.new r)) a.name with
      | false => rfl
      | true => exact absurd (h1.1 he) ht
  rw [e1, e2, e3, e4]
  constructor
  · rintro (((⟨h, rfl⟩ | ⟨h, ht, rfl⟩) | ⟨ns, h, hl, rfl⟩) | ⟨ns, h, hk, hn, ht, hd, rfl⟩)
    · exact .missing h
    · exact .format h ht
    · exact .illegal ns h hl
    · exact .extend ns h hk hn ht hd
  · intro h
    cases h with
    | missing h => exact .inl (.inl (.inl ⟨h, rfl⟩))
    | format h ht => exact .inl (.inl (.inr ⟨h, ht, rfl⟩))
    | illegal ns h hl => exact .inl (.inr ⟨ns, h, hl, rfl⟩)
    | extend ns h hk hn ht hd => exact .inr ⟨ns, h, hk, hn, ht, hd, rfl⟩

end Verif.Advice
