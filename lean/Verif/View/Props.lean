import Verif.View.Spec
import Verif.Convert.OkProps
/-
C208-C210: what templates see of a resolved schema.
-/
namespace Verif.View
open Verif.Util Verif.Resolver Verif.Semconv Verif.Convert

/-! ### Lookups -/

theorem fromResolved_spec (deps : List String) (p : Prov) : ShowsProv deps p (fromResolved deps p) where
  here h := by simp [fromResolved, h]
  there n u h hu := by simp [fromResolved, h, hu]
  beyond n h hn := by simp [fromResolved, h, List.getElem?_eq_none_iff.2 hn]
  noPath h := by simp [fromResolved, h]
  path h := by simp [fromResolved, h]

theorem showAttr_spec (deps : List String) (a : A2) : ShowsAttr deps a (showAttr deps a) :=
  ⟨rfl, rfl, rfl, rfl, fromResolved_spec deps a.prov⟩

theorem lookupRefs_err (cat : List A2) (deps : List String) (gid : String) (rs : List ARef) (e : NotFound) :
    e ∈ (lookupRefs cat deps gid rs).2 ↔ ∃ x ∈ rs, cat.length ≤ x.base ∧ e = ⟨gid, x.base⟩ := by
  induction rs with
  | nil => simp [lookupRefs]
  | cons r rs ih =>
    simp only [lookupRefs]
    cases h : cat[r.base]? with
    | some a =>
      have hl : ¬ cat.length ≤ r.base := fun hn => by
        rw [List.getElem?_eq_none_iff.2 hn] at h; cases h
      simp [ih, hl]
    | none =>
      have hl : cat.length ≤ r.base := List.getElem?_eq_none_iff.1 h
      simp [ih, hl]

theorem lookupRefs_ok (cat : List A2) (deps : List String) (gid : String) (rs : List ARef)
    (h : (lookupRefs cat deps gid rs).2 = []) : Forall2 (ShowsRef cat deps) rs (lookupRefs cat deps gid rs).1 := by
  induction rs with
  | nil => exact .nil
  | cons r rs ih =>
    simp only [lookupRefs] at h ⊢
    cases hc : cat[r.base]? with
    | some a =>
      rw [hc] at h
      exact .cons ⟨⟨a, hc, showAttr_spec deps a⟩, rfl, rfl⟩ (ih h)
    | none => rw [hc] at h; cases h

mutual
theorem mapAssoc_type {α β γ : Type} (f : α → β) (g : β → γ) (x : Assoc α) :
    mapAssoc g (mapAssoc f x) = mapAssoc (fun a => g (f a)) x := by
  cases x with
  | ref a => rfl
  | oneOf l => simp only [mapAssoc]; rw [mapAssocL_type]
  | allOf l => simp only [mapAssoc]; rw [mapAssocL_type]
theorem mapAssocL_type {α β γ : Type} (f : α → β) (g : β → γ) (l : List (Assoc α)) :
    mapAssocL g (mapAssocL f l) = mapAssocL (fun a => g (f a)) l := by
  cases l with
  | nil => rfl
  | cons x l => simp only [mapAssocL]; rw [mapAssoc_type, mapAssocL_type]
end

mutual
theorem leaves_map {α β : Type} (f : α → β) (x : Assoc α) : leaves (mapAssoc f x) = (leaves x).map f := by
  cases x with
  | ref a => rfl
  | oneOf l => simp only [mapAssoc, leaves]; exact leavesL_map f l
  | allOf l => simp only [mapAssoc, leaves]; exact leavesL_map f l
theorem leavesL_map {α β : Type} (f : α → β) (l : List (Assoc α)) : leavesL (mapAssocL f l) = (leavesL l).map f := by
  cases l with
  | nil => rfl
  | cons x l => simp only [mapAssocL, leavesL, List.map_append]; rw [leaves_map, leavesL_map]
end

theorem forall2_map {α β : Type} {R : α → β → Prop} (f : α → β) (l : List α) (h : ∀ a, R a (f a)) :
    Forall2 R l (l.map f) := by
  induction l with
  | nil => exact .nil
  | cons a l ih => exact .cons (h a) ih

theorem showAssocs_spec (deps : List String) (l : List (Assoc ERef)) : ShowsAssocs deps l (showAssocs deps l) := by
  refine ⟨?_, ?_⟩
  · rw [showAssocs, mapAssocL_type]
  · rw [showAssocs, leavesL_map]
    exact forall2_map _ _ fun r => ⟨rfl, fromResolved_spec deps _⟩

/-! ### Loops and sorting -/

theorem loop_err {α β : Type} (f : α → β × List NotFound) (l : List α) (e : NotFound) :
    e ∈ (loop f l).2 ↔ ∃ a ∈ l, e ∈ (f a).2 := by
  induction l with
  | nil => simp [loop]
  | cons a l ih => simp [loop, ih]

theorem loop_ok {α β : Type} {R : α → β → Prop} (f : α → β × List NotFound) (l : List α)
    (hf : ∀ a, (f a).2 = [] → R a (f a).1) (h : (loop f l).2 = []) : Forall2 R l (loop f l).1 := by
  induction l with
  | nil => exact .nil
  | cons a l ih =>
    simp only [loop, List.append_eq_nil_iff] at h
    exact .cons (hf a h.1) (ih h.2)

theorem keyLe_total {α : Type} (key : α → String) : TotalPre (fun a b : α => decide (key a ≤ key b)) where
  total a b := by simp only [decide_eq_true_eq]; exact String.le_total _ _
  trans a b c := by simp only [decide_eq_true_eq]; exact String.le_trans

theorem forall2_filter {α β : Type} {R : α → β → Prop} (p : α → Bool) (q : β → Bool) (hpq : ∀ a b, R a b → p a = q b)
    {l : List α} {m : List β} (h : Forall2 R l m) : Forall2 R (l.filter p) (m.filter q) := by
  induction h with
  | nil => exact .nil
  | cons hab _ ih =>
    rename_i a b l m _
    rw [List.filter_cons, List.filter_cons, ← hpq a b hab]
    split
    · exact .cons hab ih
    · exact ih

theorem byKey_shown {α β : Type} {R : α → β → Prop} (ka : α → String) (kb : β → String) (hk : ∀ a b, R a b → kb b = ka a)
    {l : List α} {m : List β} (h : Forall2 R l m) : ShownInOrder R ka kb l (byKey kb m) := by
  refine ⟨?_, fun k => ?_⟩
  · have := sortBy_sorted (keyLe_total kb) m
    exact List.Pairwise.imp (fun h => by simpa using h) this
  · rw [byKey, sortBy_stable]
    · exact forall2_filter _ _ (fun a b hab => by rw [hk a b hab]) h
    · intro a _ b _ ha hb
      simp only [decide_eq_true_eq] at ha hb ⊢
      rw [ha, hb]; exact String.le_refl _

/-! ### Single items -/

theorem showMetric_spec (cat : List A2) (deps : List String) (m : Metric) (h : (showMetric cat deps m).2 = []) :
    ShowsMetric cat deps m (showMetric cat deps m).1 :=
  ⟨rfl, rfl, rfl, rfl, rfl, fromResolved_spec _ _, lookupRefs_ok _ _ _ _ h, showAssocs_spec _ _⟩

theorem showSpan_spec (cat : List A2) (deps : List String) (gid : String) (m : Span) (h : (showSpan cat deps gid m).2 = []) :
    ShowsSpan cat deps m (showSpan cat deps gid m).1 :=
  ⟨rfl, rfl, rfl, rfl, rfl, fromResolved_spec _ _, lookupRefs_ok _ _ _ _ h, showAssocs_spec _ _⟩

theorem showEvent_spec (cat : List A2) (deps : List String) (gid : String) (m : Event)
    (h : (showEvent cat deps gid m).2 = []) : ShowsEvent cat deps m (showEvent cat deps gid m).1 :=
  ⟨rfl, rfl, rfl, fromResolved_spec _ _, lookupRefs_ok _ _ _ _ h, showAssocs_spec _ _⟩

theorem showEntity_spec (cat : List A2) (deps : List String) (gid : String) (m : Entity)
    (h : (showEntity cat deps gid m).2 = []) : ShowsEntity cat deps m (showEntity cat deps gid m).1 := by
  simp only [showEntity, List.append_eq_nil_iff] at h
  exact ⟨rfl, rfl, rfl, fromResolved_spec _ _, lookupRefs_ok _ _ _ _ h.1, lookupRefs_ok _ _ _ _ h.2⟩

theorem showGroup_spec (cat : List A2) (deps : List String) (m : AGroup) (h : (showGroup cat deps m).2 = []) :
    ShowsGroup cat deps m (showGroup cat deps m).1 :=
  ⟨rfl, rfl, fromResolved_spec _ _, lookupRefs_ok _ _ _ _ h⟩

/-- All errors of a schema, in order. -/
def errorsOf (s : Schema) : List NotFound :=
  (loop (showMetric s.out.catalog s.deps) s.out.metrics).2 ++ (loop (showMetricRef s.out.catalog s.deps) s.out.metricRefs).2 ++
  (loop (fun x => showSpan s.out.catalog s.deps x.type x) s.out.spans).2 ++
  (loop (showSpanRef s.out.catalog s.deps) s.out.spanRefs).2 ++
  (loop (fun x => showEvent s.out.catalog s.deps x.name x) s.out.events).2 ++
  (loop (showEventRef s.out.catalog s.deps) s.out.eventRefs).2 ++
  (loop (fun x => showEntity s.out.catalog s.deps x.type x) s.out.entities).2 ++
  (loop (showEntityRef s.out.catalog s.deps) s.out.entityRefs).2 ++
  (loop (showGroup s.out.catalog s.deps) s.out.groups).2

theorem mem_errorsOf (s : Schema) (e : NotFound) : e ∈ errorsOf s ↔ Dangling s e := by
  simp only [errorsOf, List.mem_append, loop_err, showMetric, showMetricRef, showSpan, showSpanRef, showEvent, showEventRef,
    showEntity, showEntityRef, showGroup, lookupRefs_err]
  constructor
  · rintro ((((((((h | h) | h) | h) | h) | h) | h) | h) | h)
    · obtain ⟨m, hm, x, hx, hd, rfl⟩ := h; exact .metric m hm x hx hd
    · obtain ⟨m, hm, x, hx, hd, rfl⟩ := h; exact .metricRef m hm x hx hd
    · obtain ⟨m, hm, x, hx, hd, rfl⟩ := h; exact .span m hm x hx hd
    · obtain ⟨m, hm, x, hx, hd, rfl⟩ := h; exact .spanRef m hm x hx hd
    · obtain ⟨m, hm, x, hx, hd, rfl⟩ := h; exact .event m hm x hx hd
    · obtain ⟨m, hm, x, hx, hd, rfl⟩ := h; exact .eventRef m hm x hx hd
    · obtain ⟨m, hm, ⟨x, hx, hd, rfl⟩ | ⟨x, hx, hd, rfl⟩⟩ := h
      · exact .entity m hm x (.inl hx) hd
      · exact .entity m hm x (.inr hx) hd
    · obtain ⟨m, hm, ⟨x, hx, hd, rfl⟩ | ⟨x, hx, hd, rfl⟩⟩ := h
      · exact .entityRef m hm x (.inl hx) hd
      · exact .entityRef m hm x (.inr hx) hd
    · obtain ⟨m, hm, x, hx, hd, rfl⟩ := h; exact .group m hm x hx hd
  · intro h
    cases h with
    | metric m hm x hx hd => exact .inl (.inl (.inl (.inl (.inl (.inl (.inl (.inl ⟨m, hm, x, hx, hd, rfl⟩)))))))
    | metricRef m hm x hx hd => exact .inl (.inl (.inl (.inl (.inl (.inl (.inl (.inr ⟨m, hm, x, hx, hd, rfl⟩)))))))
    | span m hm x hx hd => exact .inl (.inl (.inl (.inl (.inl (.inl (.inr ⟨m, hm, x, hx, hd, rfl⟩))))))
    | spanRef m hm x hx hd => exact .inl (.inl (.inl (.inl (.inl (.inr ⟨m, hm, x, hx, hd, rfl⟩)))))
    | event m hm x hx hd => exact .inl (.inl (.inl (.inl (.inr ⟨m, hm, x, hx, hd, rfl⟩))))
    | eventRef m hm x hx hd => exact .inl (.inl (.inl (.inr ⟨m, hm, x, hx, hd, rfl⟩)))
    | entity m hm x hx hd =>
      refine .inl (.inl (.inr ⟨m, hm, ?_⟩))
      rcases hx with hx | hx
      · exact .inl ⟨x, hx, hd, rfl⟩
      · exact .inr ⟨x, hx, hd, rfl⟩
    | entityRef m hm x hx hd =>
      refine .inl (.inr ⟨m, hm, ?_⟩)
      rcases hx with hx | hx
      · exact .inl ⟨x, hx, hd, rfl⟩
      · exact .inr ⟨x, hx, hd, rfl⟩
    | group m hm x hx hd => exact .inr ⟨m, hm, x, hx, hd, rfl⟩

theorem filterMap_get (cat : List A2) (l : List Nat) :
    Forall2 (fun n a => cat[n]? = some a) (l.filter fun n => decide (n < cat.length)) (l.filterMap fun r => cat[r]?) := by
  induction l with
  | nil => exact .nil
  | cons n l ih =>
    by_cases h : n < cat.length
    · have : cat[n]? = some cat[n] := List.getElem?_eq_getElem h
      rw [List.filter_cons, if_pos (by simpa using h), List.filterMap_cons, this]
      exact .cons this ih
    · have : cat[n]? = none := List.getElem?_eq_none_iff.2 (Nat.le_of_not_lt h)
      rw [List.filter_cons, if_neg (by simpa using h), List.filterMap_cons, this]
      exact ih

/-- C208: the view of a schema shows every signal, refinement, attribute group and attribute of it, with every field,
with each attribute in place of the reference to it, and ordered by name. -/
theorem signals_shown (s : Schema) (r : VReg) (h : show1 s = .ok r) : Shows s r := by
  simp only [show1] at h
  split at h
  · cases h
  · rename_i hne
    have hne := Decidable.not_not.1 hne
    simp only [List.append_eq_nil_iff] at hne
    obtain ⟨⟨⟨⟨⟨⟨⟨⟨h1, h2⟩, h3⟩, h4⟩, h5⟩, h6⟩, h7⟩, h8⟩, h9⟩ := hne
    cases h
    exact
      { metrics := byKey_shown _ _ (fun _ _ h => h.name) (loop_ok _ _ (showMetric_spec _ _) h1)
        spans := byKey_shown _ _ (fun _ _ h => h.type) (loop_ok _ _ (fun a => showSpan_spec _ _ _ a) h3)
        events := byKey_shown _ _ (fun _ _ h => h.name) (loop_ok _ _ (fun a => showEvent_spec _ _ _ a) h5)
        entities := byKey_shown _ _ (fun _ _ h => h.type) (loop_ok _ _ (fun a => showEntity_spec _ _ _ a) h7)
        metricRefs := byKey_shown _ _ (fun _ _ h => h.1)
          (loop_ok _ _ (fun a ha => ⟨rfl, showMetric_spec _ _ a.sig ha⟩) h2)
        spanRefs := byKey_shown _ _ (fun _ _ h => h.1)
          (loop_ok _ _ (fun a ha => ⟨rfl, showSpan_spec _ _ _ a.sig ha⟩) h4)
        eventRefs := byKey_shown _ _ (fun _ _ h => h.1)
          (loop_ok _ _ (fun a ha => ⟨rfl, showEvent_spec _ _ _ a.sig ha⟩) h6)
        entityRefs := byKey_shown _ _ (fun _ _ h => h.1)
          (loop_ok _ _ (fun a ha => ⟨rfl, showEntity_spec _ _ _ a.sig ha⟩) h8)
        groups := loop_ok _ _ (showGroup_spec _ _) h9
        attributes := ⟨_, filterMap_get _ _,
          byKey_shown _ _ (fun _ _ h => h.key) (forall2_map _ _ (showAttr_spec _))⟩ }

theorem show1_err (s : Schema) (l : List NotFound) : show1 s = .error l ↔ l = errorsOf s ∧ errorsOf s ≠ [] := by
  have : show1 s = if errorsOf s ≠ [] then .error (errorsOf s) else show1 s := by
    simp only [show1, errorsOf]
    split <;> rfl
  constructor
  · intro h
    by_cases he : errorsOf s ≠ []
    · rw [this, if_pos he] at h; cases h; exact ⟨rfl, he⟩
    · rw [show1] at h
      simp only [errorsOf] at he
      rw [if_neg he] at h; cases h
  · rintro ⟨rfl, he⟩
    rw [this, if_pos he]

/-- C209: a schema whose signals refer to attributes that are not in its catalog is not shown; exactly those references
are reported, each with its signal. -/
theorem dangling_reported_partial (s : Schema) :
    ((∃ r, show1 s = .ok r) ↔ ∀ e, ¬ Dangling s e) ∧
    ∀ l, show1 s = .error l → ∀ e, e ∈ l ↔ Dangling s e := by
  refine ⟨⟨fun ⟨r, hr⟩ e he => ?_, fun h => ?_⟩, fun l hl e => ?_⟩
  · have := (mem_errorsOf s e).2 he
    rw [(show1_err s _).2 ⟨rfl, fun hn => by rw [hn] at this; cases this⟩] at hr; cases hr
  · cases hs : show1 s with
    | ok r => exact ⟨r, rfl⟩
    | error l =>
      obtain ⟨_, hne⟩ := (show1_err s l).1 hs
      obtain ⟨e, he⟩ := List.exists_mem_of_ne_nil _ hne
      exact absurd ((mem_errorsOf s e).1 he) (h e)
  · rw [((show1_err s l).1 hl).1, mem_errorsOf]

end Verif.View
