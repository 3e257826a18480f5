import Verif.Infer.Examples
/-
C29, C79, C80: the inferred registry.
-/
namespace Verif.Infer
open Verif.Util Verif.Values
open Verif.LiveCheck (Elem Value PType SAttr SpanEvent Point Points Instr Metric Log)

variable (toF : Int → Nat)

/-! ### Specification: what the samples say -/

/-- The spans sampled, in order. -/
def spansOf (l : List Sample) : List Span := l.filterMap fun | .span s => some s | _ => none

/-- The spans of one name. -/
def spansNamed (n : String) (l : List Sample) : List Span := (spansOf l).filter (fun s => decide (s.name = n))

/-- The metrics sampled, in order, with their instruments; those with an unsupported instrument do not count. -/
def metricsOf (l : List Sample) : List (String × Metric) := l.filterMap fun
  | .metric m => match m.instrument with | .supported i => some (i, m) | .unsupported _ => none
  | _ => none

/-- The metrics of one name. -/
def metricsNamed (n : String) (l : List Sample) : List (String × Metric) :=
  (metricsOf l).filter (fun m => decide (m.2.name = n))

/-- The log records that are events. -/
def logsOf (l : List Sample) : List (String × List SAttr) := l.filterMap fun
  | .log r => if r.eventName = "" then none else some (r.eventName, r.attrs)
  | _ => none

/-- The attributes sampled for resources, or on their own. -/
def resourceAttrs (l : List Sample) : List SAttr := l.flatMap fun
  | .resource as => as
  | .attribute a => [a]
  | _ => []

/-- The events of spans. -/
def eventsOf (spans : List Span) : List (String × List SAttr) :=
  spans.flatMap fun s => s.events.map fun e => (e.name, e.attrs)

/-- The data points of a metric. -/
def allPoints : LiveCheck.Points → List LiveCheck.Point
  | .number l => l
  | .histogram l => l
  | .exponential l => l

/-- The attributes of all data points of a metric. -/
def measured (m : Metric) : List SAttr := (m.points.toList.flatMap allPoints).flatMap (·.attrs)

/-- The places attributes are collected from, in the order of their rank: an attribute that is sampled in several places
is described by the samples of a place of the lowest rank. -/
inductive Place (l : List Sample) : Nat → List SAttr → Prop
  | resource : Place l 0 (resourceAttrs l)
  | span (n : String) : Place l 1 ((spansNamed n l).flatMap (·.attrs))
  | spanEvent (n e : String) : Place l 1 (mvals e (eventsOf (spansNamed n l))).flatten
  | metric (n : String) : Place l 2 ((metricsNamed n l).flatMap fun m => measured m.2)
  | log (e : String) : Place l 3 (mvals e (logsOf l)).flatten

/-- A list of names that is strictly sorted, hence without duplicates, and holds exactly the names with a property. -/
def Listing (names : List String) (S : String → Prop) : Prop := names.Pairwise (· < ·) ∧ ∀ n, n ∈ names ↔ S n

/-! ### What the accumulator holds -/

/-- A map of events describes a list of events. -/
def EventsIs (m : List (String × Attrs)) (evs : List (String × List SAttr)) : Prop :=
  (m.map Prod.fst).Nodup ∧ ∀ n, match aget n m with
    | none => mvals n evs = []
    | some a => mvals n evs ≠ [] ∧ AttrsIs toF a (mvals n evs).flatten

/-- A map of spans describes a list of spans. -/
def SpansIs (m : List (String × SpanAcc)) (spans : List Span) : Prop :=
  (m.map Prod.fst).Nodup ∧ ∀ n, match aget n m with
    | none => spans.filter (fun s => decide (s.name = n)) = []
    | some e => ∃ s r, spans.filter (fun s => decide (s.name = n)) = s :: r ∧ e.kind = s.kind ∧
        AttrsIs toF e.attrs ((s :: r).flatMap (·.attrs)) ∧ EventsIs toF e.events (eventsOf (s :: r))

/-- A map of metrics describes a list of metrics. -/
def MetricsIs (m : List (String × MetricAcc)) (ms : List (String × Metric)) : Prop :=
  (m.map Prod.fst).Nodup ∧ ∀ n, match aget n m with
    | none => ms.filter (fun x => decide (x.2.name = n)) = []
    | some e => ∃ x r, ms.filter (fun x => decide (x.2.name = n)) = x :: r ∧ e.instrument = x.1 ∧ e.unit = x.2.unit ∧
        AttrsIs toF e.attrs ((x :: r).flatMap fun y => measured y.2)

/-- The accumulator describes the samples. -/
structure StIs (st : St) (l : List Sample) : Prop where
  resources : AttrsIs toF st.resources (resourceAttrs l)
  spans : SpansIs toF st.spans (spansOf l)
  metrics : MetricsIs toF st.metrics (metricsOf l)
  events : EventsIs toF st.events (logsOf l)

theorem eventsIs_nil : EventsIs toF [] [] := ⟨by simp, fun n => by simp [aget, mvals]⟩

theorem accEvent_is {m : List (String × Attrs)} {evs : List (String × List SAttr)} (h : EventsIs toF m evs)
    (n : String) (attrs : List SAttr) : EventsIs toF (accEvent toF m n attrs) (evs ++ [(n, attrs)]) := by
  unfold accEvent
  refine ⟨nodup_aset h.1, fun k => ?_⟩
  rw [aget_aset, mvals_append]
  by_cases hk : k = n
  · subst hk
    simp only [if_true]
    refine ⟨by simp, ?_⟩
    rw [List.flatten_concat]
    have h1 := h.2 k
    cases hg : aget k m with
    | none =>
      rw [hg] at h1; rw [show mvals k evs = [] from h1]
      exact accAttrs_is toF (attrsIs_nil toF) attrs
    | some a =>
      rw [hg] at h1
      exact accAttrs_is toF h1.2 attrs
  · rw [if_neg hk]
    simp only [if_neg (Ne.symm hk)]
    exact h.2 k

theorem accEvents_is {m : List (String × Attrs)} {evs : List (String × List SAttr)} (h : EventsIs toF m evs)
    (l : List SpanEvent) : EventsIs toF (l.foldl (fun evs ev => accEvent toF evs ev.name ev.attrs) m)
      (evs ++ l.map fun e => (e.name, e.attrs)) := by
  induction l generalizing m evs with
  | nil => simpa using h
  | cons e l ih => simpa using ih (accEvent_is toF h e.name e.attrs)

theorem addSpan_is {m : List (String × SpanAcc)} {spans : List Span} (h : SpansIs toF m spans) (s : Span) :
    SpansIs toF (addSpan toF m s) (spans ++ [s]) := by
  unfold addSpan
  dsimp only
  refine ⟨nodup_aset h.1, fun k => ?_⟩
  rw [aget_aset, List.filter_append]
  by_cases hk : k = s.name
  · subst hk
    rw [if_pos rfl]
    simp only [decide_true, List.filter_cons_of_pos, List.filter_nil]
    have h1 := h.2 s.name
    cases hg : aget s.name m with
    | none =>
      rw [hg] at h1
      rw [show spans.filter (fun x => decide (x.name = s.name)) = [] from h1]
      refine ⟨s, [], rfl, rfl, ?_, ?_⟩
      · simpa using accAttrs_is toF (attrsIs_nil toF) s.attrs
      · simpa [eventsOf] using accEvents_is toF (eventsIs_nil toF) s.events
    | some e =>
      rw [hg] at h1
      obtain ⟨s', r, e1, e2, e3, e4⟩ := h1
      rw [e1]
      refine ⟨s', r ++ [s], by simp, e2, ?_, ?_⟩
      · simpa using accAttrs_is toF e3 s.attrs
      · have := accEvents_is toF e4 s.events
        simpa [eventsOf] using this
  · rw [if_neg hk]
    simp only [Ne.symm hk, decide_false, Bool.false_eq_true, not_false_eq_true, List.filter_cons_of_neg, List.filter_nil,
      List.append_nil]
    exact h.2 k

theorem pointAttrs_eq (m : Metric) : pointAttrs m = measured m := by
  unfold pointAttrs measured
  cases m.points with
  | none => rfl
  | some p => cases p <;> simp [allPoints]

theorem addMetric_is {m : List (String × MetricAcc)} {ms : List (String × Metric)} (h : MetricsIs toF m ms) (x : Metric) :
    MetricsIs toF (addMetric toF m x) (ms ++ metricsOf [.metric x]) := by
  unfold addMetric
  cases hi : x.instrument with
  | unsupported u => simpa [metricsOf, hi] using h
  | supported i =>
    have e : metricsOf [.metric x] = [(i, x)] := by simp [metricsOf, hi]
    rw [e]
    dsimp only
    refine ⟨nodup_aset h.1, fun k => ?_⟩
    rw [aget_aset, List.filter_append]
    by_cases hk : k = x.name
    · subst hk
      rw [if_pos rfl]
      simp only [decide_true, List.filter_cons_of_pos, List.filter_nil]
      have h1 := h.2 x.name
      cases hg : aget x.name m with
      | none =>
        rw [hg] at h1
        rw [show ms.filter (fun y => decide (y.2.name = x.name)) = [] from h1]
        refine ⟨(i, x), [], rfl, rfl, rfl, ?_⟩
        simpa [pointAttrs_eq] using accAttrs_is toF (attrsIs_nil toF) (measured x)
      | some e =>
        rw [hg] at h1
        obtain ⟨s', r, e1, e2, e3, e4⟩ := h1
        rw [e1]
        refine ⟨s', r ++ [(i, x)], by simp, e2, e3, ?_⟩
        simpa [pointAttrs_eq] using accAttrs_is toF e4 (measured x)
    · rw [if_neg hk]
      simp only [Ne.symm hk, decide_false, Bool.false_eq_true, not_false_eq_true, List.filter_cons_of_neg,
        List.filter_nil, List.append_nil]
      exact h.2 k

theorem addSample_is {st : St} {l : List Sample} (h : StIs toF st l) (s : Sample) :
    StIs toF (addSample toF st s) (l ++ [s]) := by
  cases s with
  | resource as =>
    refine ⟨?_, ?_, ?_, ?_⟩
    · simpa [resourceAttrs, addSample] using accAttrs_is toF h.resources as
    · simpa [spansOf, addSample] using h.spans
    · simpa [metricsOf, addSample] using h.metrics
    · simpa [logsOf, addSample] using h.events
  | span s =>
    refine ⟨?_, ?_, ?_, ?_⟩
    · simpa [resourceAttrs, addSample] using h.resources
    · simpa [spansOf, addSample] using addSpan_is toF h.spans s
    · simpa [metricsOf, addSample] using h.metrics
    · simpa [logsOf, addSample] using h.events
  | metric m =>
    refine ⟨?_, ?_, ?_, ?_⟩
    · simpa [resourceAttrs, addSample] using h.resources
    · simpa [spansOf, addSample] using h.spans
    · have := addMetric_is toF h.metrics m
      rw [metricsOf, List.filterMap_append]; exact this
    · simpa [logsOf, addSample] using h.events
  | log r =>
    by_cases hn : r.eventName = ""
    · refine ⟨?_, ?_, ?_, ?_⟩
      · simpa [resourceAttrs, addSample, hn] using h.resources
      · simpa [spansOf, addSample, hn] using h.spans
      · simpa [metricsOf, addSample, hn] using h.metrics
      · simpa [logsOf, addSample, hn] using h.events
    · refine ⟨?_, ?_, ?_, ?_⟩
      · simpa [resourceAttrs, addSample, hn] using h.resources
      · simpa [spansOf, addSample, hn] using h.spans
      · simpa [metricsOf, addSample, hn] using h.metrics
      · simpa [logsOf, addSample, hn] using accEvent_is toF h.events r.eventName r.attrs
  | «attribute» a =>
    refine ⟨?_, ?_, ?_, ?_⟩
    · simpa [resourceAttrs, addSample] using accAttr_is toF h.resources a
    · simpa [spansOf, addSample] using h.spans
    · simpa [metricsOf, addSample] using h.metrics
    · simpa [logsOf, addSample] using h.events
  | other =>
    refine ⟨?_, ?_, ?_, ?_⟩
    · simpa [resourceAttrs, addSample] using h.resources
    · simpa [spansOf, addSample] using h.spans
    · simpa [metricsOf, addSample] using h.metrics
    · simpa [logsOf, addSample] using h.events

theorem addSamples_is (l : List Sample) : StIs toF (addSamples toF l) l := by
  suffices H : ∀ (l done : List Sample) (st : St), StIs toF st done → StIs toF (l.foldl (addSample toF) st) (done ++ l) by
    have := H l [] {} ⟨attrsIs_nil toF, ⟨by simp, fun n => by simp [aget, spansOf]⟩,
      ⟨by simp, fun n => by simp [aget, metricsOf]⟩, eventsIs_nil toF⟩
    simpa [addSamples] using this
  intro l
  induction l with
  | nil => intro done st h; simpa using h
  | cons s l ih =>
    intro done st h
    have := ih _ _ (addSample_is toF h s)
    simpa using this

/-! ### Iteration order -/

theorem AttrsIs.same {m n : Attrs} {l : List SAttr} (h : AttrsIs toF m l) (hs : SameMap Eq m n) : AttrsIs toF n l := by
  refine ⟨hs.1, fun k => ?_⟩
  have h1 := h.2 k
  cases hn : aget k n with
  | none =>
    cases hm : aget k m with
    | none => rw [hm] at h1; exact h1
    | some v => obtain ⟨w, hw, _⟩ := hs.2.1 k v hm; rw [hn] at hw; cases hw
  | some w =>
    obtain ⟨v, hv, e⟩ := hs.2.2 k w hn
    rw [hv] at h1; subst e; exact h1

theorem EventsIs.same {m n : List (String × Attrs)} {evs : List (String × List SAttr)} (h : EventsIs toF m evs)
    (hs : SameMap (SameMap Eq) m n) : EventsIs toF n evs := by
  refine ⟨hs.1, fun k => ?_⟩
  have h1 := h.2 k
  cases hn : aget k n with
  | none =>
    cases hm : aget k m with
    | none => rw [hm] at h1; exact h1
    | some v => obtain ⟨w, hw, _⟩ := hs.2.1 k v hm; rw [hn] at hw; cases hw
  | some w =>
    obtain ⟨v, hv, e⟩ := hs.2.2 k w hn
    rw [hv] at h1; exact ⟨h1.1, h1.2.same toF e⟩

theorem StIs.same {a b : St} {l : List Sample} (h : StIs toF a l) (hs : Shuffled a b) : StIs toF b l := by
  refine ⟨h.resources.same toF hs.resources, ⟨hs.spans.1, fun k => ?_⟩, ⟨hs.metrics.1, fun k => ?_⟩,
    h.events.same toF hs.events⟩
  · have h1 := h.spans.2 k
    cases hn : aget k b.spans with
    | none =>
      cases hm : aget k a.spans with
      | none => rw [hm] at h1; exact h1
      | some v => obtain ⟨w, hw, _⟩ := hs.spans.2.1 k v hm; rw [hn] at hw; cases hw
    | some w =>
      obtain ⟨v, hv, e1, e2, e3⟩ := hs.spans.2.2 k w hn
      rw [hv] at h1
      obtain ⟨s, r, h2, h3, h4, h5⟩ := h1
      exact ⟨s, r, h2, e1 ▸ h3, h4.same toF e2, h5.same toF e3⟩
  · have h1 := h.metrics.2 k
    cases hn : aget k b.metrics with
    | none =>
      cases hm : aget k a.metrics with
      | none => rw [hm] at h1; exact h1
      | some v => obtain ⟨w, hw, _⟩ := hs.metrics.2.1 k v hm; rw [hn] at hw; cases hw
    | some w =>
      obtain ⟨v, hv, e1, e2, e3⟩ := hs.metrics.2.2 k w hn
      rw [hv] at h1
      obtain ⟨s, r, h2, h3, h4, h5⟩ := h1
      exact ⟨s, r, h2, e1 ▸ h3, e2 ▸ h4, h5.same toF e3⟩

/-! ### Sorted lists of names -/

theorem leS_totalPre : TotalPre leS where
  total a b := by
    simp only [leS, decide_eq_true_eq, Bool.or_eq_true]
    exact String.le_total a b
  trans a b c h1 h2 := by
    simp only [leS, decide_eq_true_eq] at *
    exact String.le_trans h1 h2

theorem lt_of_le_ne {a b : String} (h : a ≤ b) (hn : a ≠ b) : a < b := by
  rcases str_trichotomy a b with h' | h' | h'
  · exact h'
  · exact absurd h' hn
  · exact absurd h' (String.not_lt.2 h)

/-- Sorting a list without duplicates sorts it strictly. -/
theorem sort_strict {α : Type} (key : α → String) (l : List α) (hn : (l.map key).Nodup) :
    ((sortBy (fun a b => leS (key a) (key b)) l).map key).Pairwise (· < ·) := by
  have ht : TotalPre (fun a b => leS (key a) (key b)) :=
    ⟨fun a b => leS_totalPre.total _ _, fun a b c => leS_totalPre.trans _ _ _⟩
  have h1 := sortBy_sorted ht l
  have h2 : ((sortBy (fun a b => leS (key a) (key b)) l).map key).Nodup :=
    ((sortBy_perm _ l).map key).nodup_iff.2 hn
  rw [List.pairwise_map]
  rw [List.Nodup, List.pairwise_map] at h2
  exact (List.pairwise_and_iff.2 ⟨h1, h2⟩).imp fun h => lt_of_le_ne (by simpa [leS] using h.1) h.2

theorem sort_strict_id (l : List String) (hn : l.Nodup) : (sortBy leS l).Pairwise (· < ·) := by
  have := sort_strict id l (by simpa using hn)
  simpa using this

theorem dedup_mem (l : List String) (x : String) : x ∈ dedup l ↔ x ∈ l := by
  fun_induction dedup l with
  | case1 => simp
  | case2 => simp
  | case3 y l ih => rw [ih]; simp
  | case4 a b l h ih => simp only [List.mem_cons] at ih ⊢; rw [ih]

theorem dedup_strict (l : List String) (h : Sorted leS l) : (dedup l).Pairwise (· < ·) := by
  fun_induction dedup l with
  | case1 => simp
  | case2 => simp
  | case3 y l ih => exact ih (List.pairwise_cons.1 h).2
  | case4 a b l hne ih =>
    obtain ⟨h1, h2⟩ := List.pairwise_cons.1 h
    refine List.pairwise_cons.2 ⟨fun x hx => ?_, ih h2⟩
    have hx := (dedup_mem _ _).1 hx
    have hab : a < b := lt_of_le_ne (by simpa [leS] using h1 b (by simp)) hne
    rcases List.mem_cons.1 hx with rfl | hx
    · exact hab
    · have : b ≤ x := by simpa [leS] using (List.pairwise_cons.1 h2).1 x hx
      rcases str_trichotomy b x with h' | h' | h'
      · exact String.lt_trans hab h'
      · exact h' ▸ hab
      · exact absurd h' (String.not_lt.2 this)

theorem Listing.unique {a b : List String} {S : String → Prop} (ha : Listing a S) (hb : Listing b S) : a = b := by
  obtain ⟨ha1, ha2⟩ := ha
  obtain ⟨hb1, hb2⟩ := hb
  have hm : ∀ x, x ∈ a ↔ x ∈ b := fun x => (ha2 x).trans (hb2 x).symm
  clear ha2 hb2
  induction a generalizing b with
  | nil =>
    cases b with
    | nil => rfl
    | cons y b => exact absurd ((hm y).2 (by simp)) (by simp)
  | cons x a ih =>
    cases b with
    | nil => exact absurd ((hm x).1 (by simp)) (by simp)
    | cons y b =>
      obtain ⟨h1, h2⟩ := List.pairwise_cons.1 ha1
      obtain ⟨h3, h4⟩ := List.pairwise_cons.1 hb1
      have hxy : x = y := by
        rcases List.mem_cons.1 ((hm x).1 (by simp)) with h | h
        · exact h
        · rcases List.mem_cons.1 ((hm y).2 (by simp)) with h' | h'
          · exact h'.symm
          · exact absurd (String.lt_trans (h1 _ h') (h3 _ h)) (String.lt_irrefl _)
      subst hxy
      rw [ih h2 h4]
      intro z
      constructor
      · intro hz
        rcases List.mem_cons.1 ((hm z).1 (List.mem_cons_of_mem _ hz)) with h | h
        · exact absurd (h1 z hz) (h ▸ String.lt_irrefl _)
        · exact h
      · intro hz
        rcases List.mem_cons.1 ((hm z).2 (List.mem_cons_of_mem _ hz)) with h | h
        · exact absurd (h3 z hz) (h ▸ String.lt_irrefl _)
        · exact h

/-! ### What the registry lists -/

theorem named_ne_nil (k : String) (l : List SAttr) : named k l ≠ [] ↔ ∃ a ∈ l, a.name = k := by
  rw [ne_eq, named, List.filter_eq_nil_iff]
  simp

theorem AttrsIs.keys {m : Attrs} {l : List SAttr} (h : AttrsIs toF m l) (k : String) :
    k ∈ m.map Prod.fst ↔ ∃ a ∈ l, a.name = k := by
  rw [← named_ne_nil, mem_keys_iff]
  have h1 := h.2 k
  cases hg : aget k m with
  | none => rw [hg] at h1; simp only [reduceCtorEq, exists_false, false_iff]; exact fun h' => h' h1
  | some a =>
    rw [hg] at h1; obtain ⟨s, r, e, _⟩ := h1
    simp [e]

theorem AttrsIs.listing {m : Attrs} {l : List SAttr} (h : AttrsIs toF m l) :
    Listing (sortBy leS (m.map Prod.fst)) (fun k => ∃ a ∈ l, a.name = k) :=
  ⟨sort_strict_id _ h.1, fun k => by rw [mem_sortBy]; exact h.keys toF k⟩

/-- The spans of the registry: one per name, with the kind of the first sample and the attributes of all. -/
theorem spans_listed (l : List Sample) {st : St} (hs : Shuffled (addSamples toF l) st) :
    Listing ((toSpec st).spans.map (·.type)) (fun n => ∃ s, .span s ∈ l ∧ s.name = n) ∧
    ∀ x ∈ (toSpec st).spans, x.note = x.type ∧
      (∃ s r, spansNamed x.type l = s :: r ∧ x.kind = s.kind) ∧
      Listing x.attrs (fun k => ∃ s, .span s ∈ l ∧ s.name = x.type ∧ ∃ a ∈ s.attrs, a.name = k) := by
  have h := (addSamples_is toF l).same toF hs
  have hmem : ∀ s : Span, s ∈ spansOf l ↔ .span s ∈ l := by
    intro s
    simp only [spansOf, List.mem_filterMap]
    constructor
    · rintro ⟨x, hx, e⟩; cases x <;> simp at e; exact e ▸ hx
    · intro hx; exact ⟨_, hx, rfl⟩
  refine ⟨⟨?_, fun n => ?_⟩, fun x hx => ?_⟩
  · refine sort_strict SpanOut.type _ ?_
    rw [List.map_map]; exact h.spans.1
  · have : n ∈ (toSpec st).spans.map (·.type) ↔ n ∈ st.spans.map Prod.fst := by
      simp only [toSpec, List.mem_map, mem_sortBy]
      constructor
      · rintro ⟨x, ⟨y, hy, rfl⟩, rfl⟩; exact ⟨y, hy, rfl⟩
      · rintro ⟨y, hy, rfl⟩; exact ⟨_, ⟨y, hy, rfl⟩, rfl⟩
    rw [this, mem_keys_iff]
    have h1 := h.spans.2 n
    cases hg : aget n st.spans with
    | none =>
      rw [hg] at h1
      simp only [reduceCtorEq, exists_false, false_iff]
      rintro ⟨s, hs, rfl⟩
      have := List.filter_eq_nil_iff.1 h1 s ((hmem s).2 hs)
      simp at this
    | some e =>
      rw [hg] at h1
      obtain ⟨s, r, e1, _⟩ := h1
      simp only [Option.some.injEq, exists_eq', true_iff]
      have : s ∈ (spansOf l).filter (fun s => decide (s.name = n)) := by rw [e1]; simp
      obtain ⟨h2, h3⟩ := List.mem_filter.1 this
      exact ⟨s, (hmem s).1 h2, by simpa using h3⟩
  · simp only [toSpec, mem_sortBy, List.mem_map] at hx
    obtain ⟨⟨n, e⟩, hy, rfl⟩ := hx
    have hg := aget_of_mem_nodup h.spans.1 hy
    have h1 := h.spans.2 n
    rw [hg] at h1
    obtain ⟨s, r, e1, e2, e3, _⟩ := h1
    refine ⟨rfl, ⟨s, r, e1, e2⟩, ?_⟩
    have h2 := e3.listing toF
    refine ⟨h2.1, fun k => (h2.2 k).trans ?_⟩
    rw [← e1]
    simp only [List.mem_flatMap, List.mem_filter, hmem, decide_eq_true_eq]
    constructor
    · rintro ⟨a, ⟨s, ⟨h3, h4⟩, h5⟩, h6⟩; exact ⟨s, h3, h4, a, h5, h6⟩
    · rintro ⟨s, h3, h4, a, h5, h6⟩; exact ⟨a, ⟨s, ⟨h3, h4⟩, h5⟩, h6⟩

theorem mem_metricsOf (l : List Sample) (i : String) (m : Metric) :
    (i, m) ∈ metricsOf l ↔ .metric m ∈ l ∧ m.instrument = .supported i := by
  simp only [metricsOf, List.mem_filterMap]
  constructor
  · rintro ⟨x, hx, e⟩
    cases x <;> simp at e
    split at e
    · rename_i h; cases e; exact ⟨hx, h⟩
    · cases e
  · rintro ⟨hx, h⟩; exact ⟨_, hx, by simp [h]⟩

/-- The metrics of the registry: one per name of a metric with a supported instrument, with instrument and unit of the
first such sample and the attributes of all their data points. -/
theorem metrics_listed (l : List Sample) {st : St} (hs : Shuffled (addSamples toF l) st) :
    Listing ((toSpec st).metrics.map (·.name)) (fun n => ∃ m i, .metric m ∈ l ∧ m.instrument = .supported i ∧ m.name = n) ∧
    ∀ x ∈ (toSpec st).metrics,
      (∃ i m r, metricsNamed x.name l = (i, m) :: r ∧ x.instrument = i ∧ x.unit = m.unit) ∧
      Listing x.attrs (fun k => ∃ m i, .metric m ∈ l ∧ m.instrument = .supported i ∧ m.name = x.name ∧
        ∃ ps pt a, m.points = some ps ∧ pt ∈ allPoints ps ∧ a ∈ pt.attrs ∧ a.name = k) := by
  have h := (addSamples_is toF l).same toF hs
  refine ⟨⟨?_, fun n => ?_⟩, fun x hx => ?_⟩
  · refine sort_strict MetricOut.name _ ?_
    rw [List.map_map]; exact h.metrics.1
  · have : n ∈ (toSpec st).metrics.map (·.name) ↔ n ∈ st.metrics.map Prod.fst := by
      simp only [toSpec, List.mem_map, mem_sortBy]
      constructor
      · rintro ⟨x, ⟨y, hy, rfl⟩, rfl⟩; exact ⟨y, hy, rfl⟩
      · rintro ⟨y, hy, rfl⟩; exact ⟨_, ⟨y, hy, rfl⟩, rfl⟩
    rw [this, mem_keys_iff]
    have h1 := h.metrics.2 n
    cases hg : aget n st.metrics with
    | none =>
      rw [hg] at h1
      simp only [reduceCtorEq, exists_false, false_iff]
      rintro ⟨m, i, h2, h3, rfl⟩
      have := List.filter_eq_nil_iff.1 h1 (i, m) ((mem_metricsOf l i m).2 ⟨h2, h3⟩)
      simp at this
    | some e =>
      rw [hg] at h1
      obtain ⟨⟨i, m⟩, r, e1, _⟩ := h1
      simp only [Option.some.injEq, exists_eq', true_iff]
      have : (i, m) ∈ (metricsOf l).filter (fun s => decide (s.2.name = n)) := by rw [e1]; simp
      obtain ⟨h2, h3⟩ := List.mem_filter.1 this
      obtain ⟨h4, h5⟩ := (mem_metricsOf l i m).1 h2
      exact ⟨m, i, h4, h5, by simpa using h3⟩
  · simp only [toSpec, mem_sortBy, List.mem_map] at hx
    obtain ⟨⟨n, e⟩, hy, rfl⟩ := hx
    have hg := aget_of_mem_nodup h.metrics.1 hy
    have h1 := h.metrics.2 n
    rw [hg] at h1
    obtain ⟨⟨i, m⟩, r, e1, e2, e3, e4⟩ := h1
    refine ⟨⟨i, m, r, e1, e2, e3⟩, ?_⟩
    have h2 := e4.listing toF
    refine ⟨h2.1, fun k => (h2.2 k).trans ?_⟩
    rw [← e1]
    simp only [List.mem_flatMap, List.mem_filter, decide_eq_true_eq]
    constructor
    · rintro ⟨a, ⟨⟨j, s⟩, ⟨h3, h4⟩, h5⟩, h6⟩
      obtain ⟨h7, h8⟩ := (mem_metricsOf l j s).1 h3
      obtain ⟨pt, h5, h9⟩ := List.mem_flatMap.1 h5
      obtain ⟨ps, h5, h10⟩ := List.mem_flatMap.1 h5
      exact ⟨s, j, h7, h8, h4, ps, pt, a, by simpa using h5, h10, h9, h6⟩
    · rintro ⟨s, j, h3, h8, h4, ps, pt, a, h5, h10, h9, h6⟩
      exact ⟨a, ⟨(j, s), ⟨(mem_metricsOf l j s).2 ⟨h3, h8⟩, h4⟩,
        List.mem_flatMap.2 ⟨pt, List.mem_flatMap.2 ⟨ps, by simp [h5], h10⟩, h9⟩⟩, h6⟩

/-! ### Events -/

/-- The events of the spans of the accumulator, as entries. -/
def spanEventEntries (st : St) : List (String × Attrs) := st.spans.flatMap (·.2.events)

theorem mergedEvents_flat (st : St) : mergedEvents st =
    (spanEventEntries st).foldl (fun m e => aset e.1 ((aget e.1 m).getD [] ++ e.2.map Prod.fst) m)
      (st.events.map fun e => (e.1, e.2.map Prod.fst)) := by
  unfold mergedEvents spanEventEntries
  rw [List.foldl_flatMap]

theorem merge_keys (es : List (String × Attrs)) (m : List (String × List String)) :
    let m' := es.foldl (fun m e => aset e.1 ((aget e.1 m).getD [] ++ e.2.map Prod.fst) m) m
    ((m.map Prod.fst).Nodup → (m'.map Prod.fst).Nodup) ∧
    (∀ n, n ∈ m'.map Prod.fst ↔ n ∈ m.map Prod.fst ∨ ∃ a, (n, a) ∈ es) ∧
    (∀ n k, (∃ v, aget n m' = some v ∧ k ∈ v) ↔
      (∃ v, aget n m = some v ∧ k ∈ v) ∨ ∃ a, (n, a) ∈ es ∧ k ∈ a.map Prod.fst) := by
  induction es generalizing m with
  | nil => simp
  | cons e es ih =>
    dsimp only [List.foldl_cons] at ih ⊢
    obtain ⟨h1, h2, h3⟩ := ih (aset e.1 ((aget e.1 m).getD [] ++ e.2.map Prod.fst) m)
    refine ⟨fun hn => h1 (nodup_aset hn), fun n => ?_, fun n k => ?_⟩
    · rw [h2, keys_aset_mem]
      constructor
      · rintro ((rfl | h) | ⟨a, h⟩)
        · exact .inr ⟨e.2, by simp⟩
        · exact .inl h
        · exact .inr ⟨a, by simp [h]⟩
      · rintro (h | ⟨a, h⟩)
        · exact .inl (.inr h)
        · rcases List.mem_cons.1 h with h | h
          · exact .inl (.inl (by rw [← h]))
          · exact .inr ⟨a, h⟩
    · rw [h3, aget_aset]
      by_cases hn : n = e.1
      · subst hn
        simp only [if_true, Option.some.injEq, exists_eq_left', List.mem_append, List.mem_cons]
        constructor
        · rintro ((h | h) | ⟨a, h4, h5⟩)
          · cases hg : aget e.1 m with
            | none => rw [hg] at h; cases h
            | some v => rw [hg] at h; exact .inl ⟨v, rfl, h⟩
          · exact .inr ⟨e.2, .inl rfl, h⟩
          · exact .inr ⟨a, .inr h4, h5⟩
        · rintro (⟨v, hv, h⟩ | ⟨a, h | h, h'⟩)
          · exact .inl (.inl (by rw [hv]; exact h))
          · exact .inl (.inr (by rw [← h]; exact h'))
          · exact .inr ⟨a, h, h'⟩
      · rw [if_neg hn]
        constructor
        · rintro (h | ⟨a, h4, h5⟩)
          · exact .inl h
          · exact .inr ⟨a, by simp [h4], h5⟩
        · rintro (h | ⟨a, h4, h5⟩)
          · exact .inl h
          · rcases List.mem_cons.1 h4 with h | h
            · exact absurd (by rw [← h]) hn
            · exact .inr ⟨a, h, h5⟩

theorem mvals_ne_nil (n : String) (evs : List (String × List SAttr)) : mvals n evs ≠ [] ↔ ∃ as, (n, as) ∈ evs := by
  rw [← mem_keys_mvals]
  simp

theorem mem_mvals_flatten (n : String) (evs : List (String × List SAttr)) (a : SAttr) :
    a ∈ (mvals n evs).flatten ↔ ∃ as, (n, as) ∈ evs ∧ a ∈ as := by
  simp only [mvals, List.mem_flatten, List.mem_map, List.mem_filter, decide_eq_true_eq]
  constructor
  · rintro ⟨as, ⟨⟨n', as'⟩, ⟨h1, rfl⟩, rfl⟩, h3⟩; exact ⟨_, h1, h3⟩
  · rintro ⟨as, h1, h2⟩; exact ⟨as, ⟨(n, as), ⟨h1, rfl⟩, rfl⟩, h2⟩

theorem EventsIs.entry {m : List (String × Attrs)} {evs : List (String × List SAttr)} (h : EventsIs toF m evs)
    {n : String} {a : Attrs} (ha : (n, a) ∈ m) : mvals n evs ≠ [] ∧ AttrsIs toF a (mvals n evs).flatten := by
  have h1 := h.2 n
  rw [aget_of_mem_nodup h.1 ha] at h1
  exact h1

theorem EventsIs.has {m : List (String × Attrs)} {evs : List (String × List SAttr)} (h : EventsIs toF m evs)
    {n : String} (hn : mvals n evs ≠ []) : ∃ a, (n, a) ∈ m ∧ AttrsIs toF a (mvals n evs).flatten := by
  have h1 := h.2 n
  cases hg : aget n m with
  | none => rw [hg] at h1; exact absurd h1 hn
  | some a => rw [hg] at h1; exact ⟨a, aget_some_mem hg, h1.2⟩

/-- A log event of a name with given attributes, or a span event. -/
def HasEvent (l : List Sample) (n : String) (as : List SAttr) : Prop :=
  (∃ r, .log r ∈ l ∧ r.eventName = n ∧ n ≠ "" ∧ as = r.attrs) ∨
  (∃ s ev, .span s ∈ l ∧ ev ∈ s.events ∧ ev.name = n ∧ as = ev.attrs)

theorem mem_logsOf (l : List Sample) (n : String) (as : List SAttr) :
    (n, as) ∈ logsOf l ↔ ∃ r, .log r ∈ l ∧ r.eventName = n ∧ n ≠ "" ∧ as = r.attrs := by
  simp only [logsOf, List.mem_filterMap]
  constructor
  · rintro ⟨x, hx, e⟩
    cases x <;> simp at e
    obtain ⟨h1, h2, h3⟩ := e
    exact ⟨_, hx, h2, h2 ▸ h1, h3.symm⟩
  · rintro ⟨r, hr, rfl, h2, rfl⟩; exact ⟨_, hr, by simp [h2]⟩

theorem mem_spansOf (l : List Sample) (s : Span) : s ∈ spansOf l ↔ .span s ∈ l := by
  simp only [spansOf, List.mem_filterMap]
  constructor
  · rintro ⟨x, hx, e⟩; cases x <;> simp at e; exact e ▸ hx
  · intro hx; exact ⟨_, hx, rfl⟩

/-- The entries for span events are those of the span events sampled. -/
theorem spanEvents_spec {st : St} {l : List Sample} (h : SpansIs toF st.spans (spansOf l)) (n : String) :
    (∀ a, (n, a) ∈ spanEventEntries st → ∃ sn, AttrsIs toF a (mvals n (eventsOf (spansNamed sn l))).flatten ∧
      mvals n (eventsOf (spansNamed sn l)) ≠ []) ∧
    (∀ sn, mvals n (eventsOf (spansNamed sn l)) ≠ [] → ∃ a, (n, a) ∈ spanEventEntries st ∧
      AttrsIs toF a (mvals n (eventsOf (spansNamed sn l))).flatten) := by
  constructor
  · intro a ha
    obtain ⟨⟨sn, e⟩, h1, h2⟩ := List.mem_flatMap.1 ha
    have h3 := h.2 sn
    rw [aget_of_mem_nodup h.1 h1] at h3
    obtain ⟨s, r, e1, _, _, e4⟩ := h3
    have := e4.entry toF h2
    refine ⟨sn, ?_, ?_⟩
    · unfold spansNamed; rw [e1]; exact this.2
    · unfold spansNamed; rw [e1]; exact this.1
  · intro sn hne
    have h3 := h.2 sn
    cases hg : aget sn st.spans with
    | none =>
      rw [hg] at h3
      unfold spansNamed at hne
      rw [show (spansOf l).filter (fun s => decide (s.name = sn)) = [] from h3] at hne
      exact absurd rfl hne
    | some e =>
      rw [hg] at h3
      obtain ⟨s, r, e1, _, _, e4⟩ := h3
      unfold spansNamed at hne ⊢
      rw [e1] at hne ⊢
      obtain ⟨a, ha, hi⟩ := e4.has toF hne
      exact ⟨a, List.mem_flatMap.2 ⟨(sn, e), aget_some_mem hg, ha⟩, hi⟩

theorem mem_eventsOf_named (l : List Sample) (sn n : String) (as : List SAttr) :
    (n, as) ∈ eventsOf (spansNamed sn l) ↔
      ∃ s ev, .span s ∈ l ∧ s.name = sn ∧ ev ∈ s.events ∧ ev.name = n ∧ as = ev.attrs := by
  simp only [eventsOf, spansNamed, List.mem_flatMap, List.mem_filter, decide_eq_true_eq, mem_spansOf, List.mem_map,
    Prod.mk.injEq]
  constructor
  · rintro ⟨s, ⟨h1, h2⟩, ev, h3, h4, h5⟩; exact ⟨s, ev, h1, h2, h3, h4, h5.symm⟩
  · rintro ⟨s, ev, h1, h2, h3, h4, h5⟩; exact ⟨s, ⟨h1, h2⟩, ev, h3, h4, h5.symm⟩

/-- The events of the registry: one per name of a log event or span event, with the attributes of all of them. -/
theorem events_listed (l : List Sample) {st : St} (hs : Shuffled (addSamples toF l) st) :
    Listing ((toSpec st).events.map (·.name)) (fun n => ∃ as, HasEvent l n as) ∧
    ∀ x ∈ (toSpec st).events, Listing x.attrs (fun k => ∃ as, HasEvent l x.name as ∧ ∃ a ∈ as, a.name = k) := by
  have h := (addSamples_is toF l).same toF hs
  obtain ⟨h1, h2, h3⟩ := merge_keys (spanEventEntries st) (st.events.map fun e => (e.1, e.2.map Prod.fst))
  rw [← mergedEvents_flat] at h1 h2 h3
  have hk : (st.events.map fun e => (e.1, e.2.map Prod.fst)).map Prod.fst = st.events.map Prod.fst := by simp
  have hnd : ((mergedEvents st).map Prod.fst).Nodup := h1 (by rw [hk]; exact h.events.1)
  refine ⟨⟨?_, fun n => ?_⟩, fun x hx => ?_⟩
  · refine sort_strict EventOut.name _ ?_
    rw [List.map_map]; exact hnd
  · have : n ∈ (toSpec st).events.map (·.name) ↔ n ∈ (mergedEvents st).map Prod.fst := by
      simp only [toSpec, List.mem_map, mem_sortBy]
      constructor
      · rintro ⟨x, ⟨y, hy, rfl⟩, rfl⟩; exact ⟨y, hy, rfl⟩
      · rintro ⟨y, hy, rfl⟩; exact ⟨_, ⟨y, hy, rfl⟩, rfl⟩
    rw [this, h2, hk]
    constructor
    · rintro (hm | ⟨a, ha⟩)
      · obtain ⟨⟨n', a⟩, ha, rfl⟩ := List.mem_map.1 hm
        obtain ⟨as, has⟩ := (mvals_ne_nil _ _).1 (h.events.entry toF ha).1
        exact ⟨as, .inl ((mem_logsOf l _ as).1 has)⟩
      · obtain ⟨sn, _, hne⟩ := (spanEvents_spec toF h.spans n).1 a ha
        obtain ⟨as, has⟩ := (mvals_ne_nil _ _).1 hne
        obtain ⟨s, ev, g1, _, g3, g4, g5⟩ := (mem_eventsOf_named l sn n as).1 has
        exact ⟨as, .inr ⟨s, ev, g1, g3, g4, g5⟩⟩
    · rintro ⟨as, hl | ⟨s, ev, g1, g3, g4, g5⟩⟩
      · obtain ⟨a, ha, _⟩ := h.events.has toF ((mvals_ne_nil _ _).2 ⟨as, (mem_logsOf l n as).2 hl⟩)
        exact .inl (List.mem_map.2 ⟨_, ha, rfl⟩)
      · obtain ⟨a, ha, _⟩ := (spanEvents_spec toF h.spans n).2 s.name
          ((mvals_ne_nil _ _).2 ⟨as, (mem_eventsOf_named l s.name n as).2 ⟨s, ev, g1, rfl, g3, g4, g5⟩⟩)
        exact .inr ⟨a, ha⟩
  · simp only [toSpec, mem_sortBy, List.mem_map] at hx
    obtain ⟨⟨n, ks⟩, hy, rfl⟩ := hx
    refine ⟨dedup_strict _ (sortBy_sorted leS_totalPre ks), fun k => ?_⟩
    show k ∈ dedup (sortBy leS ks) ↔ _
    rw [dedup_mem, mem_sortBy]
    have hg := aget_of_mem_nodup hnd hy
    have h4 := h3 n k
    rw [hg] at h4
    simp only [Option.some.injEq, exists_eq_left'] at h4
    rw [h4]
    constructor
    · rintro (⟨v, hv, hk'⟩ | ⟨a, ha, hk'⟩)
      · obtain ⟨⟨n', a⟩, ha, e⟩ := List.mem_map.1 (aget_some_mem hv)
        simp only [Prod.mk.injEq] at e
        obtain ⟨rfl, rfl⟩ := e
        obtain ⟨sa, hsa, e'⟩ := ((h.events.entry toF ha).2.keys toF k).1 hk'
        obtain ⟨as, has, hin⟩ := (mem_mvals_flatten _ _ _).1 hsa
        exact ⟨as, .inl ((mem_logsOf l _ as).1 has), sa, hin, e'⟩
      · obtain ⟨sn, hi, _⟩ := (spanEvents_spec toF h.spans n).1 a ha
        obtain ⟨sa, hsa, e'⟩ := (hi.keys toF k).1 hk'
        obtain ⟨as, has, hin⟩ := (mem_mvals_flatten _ _ _).1 hsa
        obtain ⟨s, ev, g1, _, g3, g4, g5⟩ := (mem_eventsOf_named l sn n as).1 has
        exact ⟨as, .inr ⟨s, ev, g1, g3, g4, g5⟩, sa, hin, e'⟩
    · rintro ⟨as, hl | ⟨s, ev, g1, g3, g4, g5⟩, sa, hsa, e'⟩
      · have has := (mem_logsOf l n as).2 hl
        obtain ⟨a, ha, hi⟩ := h.events.has toF ((mvals_ne_nil _ _).2 ⟨as, has⟩)
        have hk' := (hi.keys toF k).2 ⟨sa, (mem_mvals_flatten _ _ _).2 ⟨as, has, hsa⟩, e'⟩
        refine .inl ⟨a.map Prod.fst, ?_, hk'⟩
        refine aget_of_mem_nodup (by rw [hk]; exact h.events.1) ?_
        exact List.mem_map.2 ⟨_, ha, rfl⟩
      · have has := (mem_eventsOf_named l s.name n as).2 ⟨s, ev, g1, rfl, g3, g4, g5⟩
        obtain ⟨a, ha, hi⟩ := (spanEvents_spec toF h.spans n).2 s.name ((mvals_ne_nil _ _).2 ⟨as, has⟩)
        exact .inr ⟨a, ha, (hi.keys toF k).2 ⟨sa, (mem_mvals_flatten _ _ _).2 ⟨as, has, hsa⟩, e'⟩⟩

/-! ### Attribute definitions -/

theorem collect_append (d a b : Attrs) : collect d (a ++ b) = collect (collect d a) b := by
  simp [collect, List.foldl_append]

theorem collect_spec (d a : Attrs) :
    ((d.map Prod.fst).Nodup → ((collect d a).map Prod.fst).Nodup) ∧
    ∀ k, aget k (collect d a) = (aget k d).or (aget k a) := by
  induction a generalizing d with
  | nil => simp [collect, aget]
  | cons p a ih =>
    obtain ⟨x, v⟩ := p
    have e : collect d ((x, v) :: a) = collect (match aget x d with | some _ => d | none => aset x v d) a := rfl
    rw [e]
    cases hg : aget x d with
    | some w =>
      refine ⟨(ih d).1, fun k => ?_⟩
      simp only [(ih d).2 k, aget]
      by_cases hk : x = k
      · subst hk; simp [hg]
      · rw [if_neg hk]
    | none =>
      refine ⟨fun hn => (ih _).1 (nodup_aset hn), fun k => ?_⟩
      simp only [(ih _).2 k, aget, aget_aset]
      by_cases hk : x = k
      · subst hk; simp [hg]
      · rw [if_neg hk, if_neg (Ne.symm hk)]

theorem aget_append (k : String) (a b : Attrs) : aget k (a ++ b) = (aget k a).or (aget k b) := by
  induction a with
  | nil => simp [aget]
  | cons p a ih => obtain ⟨x, v⟩ := p; simp only [List.cons_append, aget]; split <;> simp [ih]

/-- All entries `to_semconv_spec` collects, in order. -/
def entries (st : St) : Attrs :=
  st.resources ++ (st.spans.flatMap (fun s => s.2.attrs ++ s.2.events.flatMap (·.2)) ++
    (st.metrics.flatMap (·.2.attrs) ++ (st.events.flatMap (·.2) ++ (spanEventEntries st).flatMap (·.2))))

theorem fold_collect {α : Type} (f : α → Attrs) (l : List α) (d : Attrs) :
    l.foldl (fun d x => collect d (f x)) d = collect d (l.flatMap f) := by
  induction l generalizing d with
  | nil => simp [collect]
  | cons x l ih => rw [List.foldl_cons, ih, List.flatMap_cons, collect_append]

theorem attributeDefs_entries (st : St) : attributeDefs st = collect [] (entries st) := by
  unfold attributeDefs entries
  dsimp only
  have h1 : ∀ d, st.spans.foldl (fun d s => s.2.events.foldl (fun d e => collect d e.2) (collect d s.2.attrs)) d =
      collect d (st.spans.flatMap (fun s => s.2.attrs ++ s.2.events.flatMap (·.2))) := by
    intro d
    rw [← fold_collect]
    congr 1
    funext d s
    rw [fold_collect, collect_append]
  have h2 : ∀ d, st.spans.foldl (fun d s => s.2.events.foldl (fun d e => collect d e.2) d) d =
      collect d ((spanEventEntries st).flatMap (·.2)) := by
    intro d
    unfold spanEventEntries
    rw [List.flatMap_assoc, ← fold_collect]
    congr 1
    funext d s
    rw [fold_collect]
  rw [h1, h2, fold_collect, fold_collect]
  simp only [collect_append]

theorem aget_flatMap_some {α : Type} {f : α → Attrs} {l : List α} {k : String} {a : Attr}
    (h : aget k (l.flatMap f) = some a) : ∃ x ∈ l, aget k (f x) = some a := by
  induction l with
  | nil => simp [aget] at h
  | cons x l ih =>
    rw [List.flatMap_cons, aget_append] at h
    cases hx : aget k (f x) with
    | some b => rw [hx] at h; cases h; exact ⟨x, by simp, hx⟩
    | none => rw [hx] at h; obtain ⟨y, hy, e⟩ := ih h; exact ⟨y, by simp [hy], e⟩

theorem aget_flatMap_none {α : Type} {f : α → Attrs} {l : List α} {k : String}
    (h : aget k (l.flatMap f) = none) : ∀ x ∈ l, aget k (f x) = none := by
  intro x hx
  rw [aget_eq_none_iff] at h ⊢
  intro hm
  obtain ⟨p, hp, e⟩ := List.mem_map.1 hm
  exact h (List.mem_map.2 ⟨p, List.mem_flatMap.2 ⟨x, hx, hp⟩, e⟩)

theorem AttrsIs.some {m : Attrs} {l : List SAttr} (h : AttrsIs toF m l) {k : String} {a : Attr}
    (ha : aget k m = some a) : Described toF (named k l) a := by
  have := h.2 k; rw [ha] at this; exact this

theorem AttrsIs.none {m : Attrs} {l : List SAttr} (h : AttrsIs toF m l) {k : String}
    (ha : aget k m = none) : named k l = [] := by
  have := h.2 k; rw [ha] at this; exact this

/-- What is collected, by rank. -/
def layer (st : St) : Nat → Attrs
  | 0 => st.resources
  | 1 => st.spans.flatMap (fun s => s.2.attrs ++ s.2.events.flatMap (·.2))
  | 2 => st.metrics.flatMap (·.2.attrs)
  | 3 => st.events.flatMap (·.2)
  | _ => (spanEventEntries st).flatMap (·.2)

theorem layer_some {st : St} {l : List Sample} (h : StIs toF st l) {i : Nat} (hi : i < 4) {k : String} {a : Attr}
    (ha : aget k (layer st i) = some a) : ∃ samples, Place l i samples ∧ Described toF (named k samples) a := by
  have hcases : i = 0 ∨ i = 1 ∨ i = 2 ∨ i = 3 := by omega
  rcases hcases with rfl | rfl | rfl | rfl
  · exact ⟨_, .resource, h.resources.some toF ha⟩
  · obtain ⟨⟨sn, e⟩, hm, he⟩ := aget_flatMap_some ha
    have h3 := h.spans.2 sn
    rw [aget_of_mem_nodup h.spans.1 hm] at h3
    obtain ⟨s, r, e1, _, e3, e4⟩ := h3
    rw [aget_append] at he
    cases hx : aget k e.attrs with
    | some b =>
      rw [hx] at he; cases he
      refine ⟨_, .span sn, ?_⟩
      unfold spansNamed; rw [e1]; exact e3.some toF hx
    | none =>
      rw [hx] at he
      obtain ⟨⟨en, as⟩, hm', he'⟩ := aget_flatMap_some he
      refine ⟨_, .spanEvent sn en, ?_⟩
      unfold spansNamed; rw [e1]; exact (e4.entry toF hm').2.some toF he'
  · obtain ⟨⟨mn, e⟩, hm, he⟩ := aget_flatMap_some ha
    have h3 := h.metrics.2 mn
    rw [aget_of_mem_nodup h.metrics.1 hm] at h3
    obtain ⟨x, r, e1, _, _, e4⟩ := h3
    refine ⟨_, .metric mn, ?_⟩
    unfold metricsNamed; rw [e1]; exact e4.some toF he
  · obtain ⟨⟨en, as⟩, hm, he⟩ := aget_flatMap_some ha
    exact ⟨_, .log en, (h.events.entry toF hm).2.some toF he⟩

theorem layer_none {st : St} {l : List Sample} (h : StIs toF st l) {i : Nat} {k : String}
    (ha : aget k (layer st i) = none) {samples : List SAttr} (hp : Place l i samples) : named k samples = [] := by
  cases hp with
  | resource => exact h.resources.none toF ha
  | span n =>
    have h3 := h.spans.2 n
    cases hg : aget n st.spans with
    | none =>
      rw [hg] at h3
      unfold spansNamed
      rw [show (spansOf l).filter (fun s => decide (s.name = n)) = [] from h3]; rfl
    | some e =>
      rw [hg] at h3
      obtain ⟨s, r, e1, _, e3, e4⟩ := h3
      have := aget_flatMap_none ha _ (aget_some_mem hg)
      rw [aget_append] at this
      unfold spansNamed; rw [e1]
      exact e3.none toF (Option.or_eq_none_iff.1 this).1
  | spanEvent n en =>
    have h3 := h.spans.2 n
    cases hg : aget n st.spans with
    | none =>
      rw [hg] at h3
      unfold spansNamed
      rw [show (spansOf l).filter (fun s => decide (s.name = n)) = [] from h3]; rfl
    | some e =>
      rw [hg] at h3
      obtain ⟨s, r, e1, _, e3, e4⟩ := h3
      have := aget_flatMap_none ha _ (aget_some_mem hg)
      rw [aget_append] at this
      have h5 := aget_flatMap_none (Option.or_eq_none_iff.1 this).2
      unfold spansNamed; rw [e1]
      have h6 := e4.2 en
      cases hg' : aget en e.events with
      | none => rw [hg'] at h6; rw [show mvals en (eventsOf (s :: r)) = [] from h6]; rfl
      | some a =>
        rw [hg'] at h6
        exact h6.2.none toF (h5 _ (aget_some_mem hg'))
  | metric n =>
    have h3 := h.metrics.2 n
    cases hg : aget n st.metrics with
    | none =>
      rw [hg] at h3
      unfold metricsNamed
      rw [show (metricsOf l).filter (fun s => decide (s.2.name = n)) = [] from h3]; rfl
    | some e =>
      rw [hg] at h3
      obtain ⟨s, r, e1, _, _, e4⟩ := h3
      unfold metricsNamed; rw [e1]
      exact e4.none toF (aget_flatMap_none ha _ (aget_some_mem hg))
  | log en =>
    have h6 := h.events.2 en
    cases hg' : aget en st.events with
    | none => rw [hg'] at h6; rw [show mvals en (logsOf l) = [] from h6]; rfl
    | some a =>
      rw [hg'] at h6
      exact h6.2.none toF (aget_flatMap_none ha _ (aget_some_mem hg'))

/-- The span events collected once more were collected before. -/
theorem last_layer {st : St} {k : String} (h : aget k (layer st 1) = none) : aget k (layer st 4) = none := by
  rw [aget_eq_none_iff] at h ⊢
  intro hm
  obtain ⟨p, hp, e⟩ := List.mem_map.1 hm
  obtain ⟨ev, hev, hp⟩ := List.mem_flatMap.1 hp
  obtain ⟨s, hs, hev⟩ := List.mem_flatMap.1 hev
  exact h (List.mem_map.2 ⟨p, List.mem_flatMap.2 ⟨s, hs, List.mem_append.2 (.inr (List.mem_flatMap.2 ⟨ev, hev, hp⟩))⟩, e⟩)

theorem place_rank {l : List Sample} {i : Nat} {samples : List SAttr} (h : Place l i samples) : i < 4 := by
  cases h <;> decide

/-- Where a definition comes from. -/
theorem defs_spec {st : St} {l : List Sample} (h : StIs toF st l) (k : String) :
    match aget k (attributeDefs st) with
    | none => ∀ i samples, Place l i samples → named k samples = []
    | some a => ∃ i samples, Place l i samples ∧ Described toF (named k samples) a ∧
        ∀ j samples', Place l j samples' → named k samples' ≠ [] → i ≤ j := by
  have e : aget k (attributeDefs st) = (aget k (layer st 0)).or ((aget k (layer st 1)).or ((aget k (layer st 2)).or
      ((aget k (layer st 3)).or (aget k (layer st 4))))) := by
    rw [attributeDefs_entries, (collect_spec _ _).2]
    simp only [entries, aget_append, layer, aget, Option.none_or]
  rw [e]
  have hno : ∀ i, (∀ j, j < i → aget k (layer st j) = none) →
      ∀ j samples', Place l j samples' → named k samples' ≠ [] → i ≤ j := by
    intro i hlt j samples' hp hne
    refine Classical.byContradiction fun hij => ?_
    exact hne (layer_none toF h (hlt j (by omega)) hp)
  cases h0 : aget k (layer st 0) with
  | some a =>
    obtain ⟨s, hp, hd⟩ := layer_some toF h (by decide) h0
    exact ⟨0, s, hp, hd, hno 0 (by omega)⟩
  | none =>
  cases h1 : aget k (layer st 1) with
  | some a =>
    obtain ⟨s, hp, hd⟩ := layer_some toF h (by decide) h1
    exact ⟨1, s, hp, hd, hno 1 (fun j hj => by have : j = 0 := by omega
                                               subst this; exact h0)⟩
  | none =>
  cases h2 : aget k (layer st 2) with
  | some a =>
    obtain ⟨s, hp, hd⟩ := layer_some toF h (by decide) h2
    refine ⟨2, s, hp, hd, hno 2 (fun j hj => ?_)⟩
    rcases (show j = 0 ∨ j = 1 by omega) with rfl | rfl <;> assumption
  | none =>
  cases h3 : aget k (layer st 3) with
  | some a =>
    obtain ⟨s, hp, hd⟩ := layer_some toF h (by decide) h3
    refine ⟨3, s, hp, hd, hno 3 (fun j hj => ?_)⟩
    rcases (show j = 0 ∨ j = 1 ∨ j = 2 by omega) with rfl | rfl | rfl <;> assumption
  | none =>
    rw [last_layer h1]
    intro i s hp
    have := place_rank hp
    rcases (show i = 0 ∨ i = 1 ∨ i = 2 ∨ i = 3 by omega) with rfl | rfl | rfl | rfl
    · exact layer_none toF h h0 hp
    · exact layer_none toF h h1 hp
    · exact layer_none toF h h2 hp
    · exact layer_none toF h h3 hp

/-- The attributes of the registry: one per name sampled in any of the places, described by the samples of one place of
the lowest rank. -/
theorem attributes_listed (l : List Sample) {st : St} (hs : Shuffled (addSamples toF l) st) :
    Listing ((toSpec st).attributes.map (·.key)) (fun k => ∃ i samples, Place l i samples ∧ ∃ a ∈ samples, a.name = k) ∧
    ∀ x ∈ (toSpec st).attributes, ∃ i samples, Place l i samples ∧ Described toF (named x.key samples) x.attr ∧
      ∀ j samples', Place l j samples' → (∃ a ∈ samples', a.name = x.key) → i ≤ j := by
  have h := (addSamples_is toF l).same toF hs
  have hnd : ((attributeDefs st).map Prod.fst).Nodup := by
    rw [attributeDefs_entries]; exact (collect_spec _ _).1 (by simp)
  refine ⟨⟨?_, fun k => ?_⟩, fun x hx => ?_⟩
  · refine sort_strict DefOut.key _ ?_
    rw [List.map_map]; exact hnd
  · have : k ∈ (toSpec st).attributes.map (·.key) ↔ k ∈ (attributeDefs st).map Prod.fst := by
      simp only [toSpec, List.mem_map, mem_sortBy]
      constructor
      · rintro ⟨x, ⟨y, hy, rfl⟩, rfl⟩; exact ⟨y, hy, rfl⟩
      · rintro ⟨y, hy, rfl⟩; exact ⟨_, ⟨y, hy, rfl⟩, rfl⟩
    rw [this, mem_keys_iff]
    have h1 := defs_spec toF h k
    cases hg : aget k (attributeDefs st) with
    | none =>
      rw [hg] at h1
      simp only [reduceCtorEq, exists_false, false_iff]
      rintro ⟨i, s, hp, ha⟩
      exact (named_ne_nil _ _).2 ha (h1 i s hp)
    | some a =>
      rw [hg] at h1
      obtain ⟨i, s, hp, ⟨s', r, e, _⟩, _⟩ := h1
      simp only [Option.some.injEq, exists_eq', true_iff]
      exact ⟨i, s, hp, (named_ne_nil _ _).1 (by rw [e]; simp)⟩
  · simp only [toSpec, mem_sortBy, List.mem_map] at hx
    obtain ⟨⟨k, a⟩, hy, rfl⟩ := hx
    have h1 := defs_spec toF h k
    rw [aget_of_mem_nodup hnd hy] at h1
    obtain ⟨i, s, hp, hd, hmin⟩ := h1
    exact ⟨i, s, hp, hd, fun j s' hp' ha => hmin j s' hp' ((named_ne_nil _ _).2 ha)⟩

/-- Every attribute a signal of the registry refers to is defined in it. -/
theorem registry_closed (l : List Sample) {st : St} (hs : Shuffled (addSamples toF l) st) (k : String)
    (hk : (∃ x ∈ (toSpec st).spans, k ∈ x.attrs) ∨ (∃ x ∈ (toSpec st).metrics, k ∈ x.attrs) ∨
      ∃ x ∈ (toSpec st).events, k ∈ x.attrs) : ∃ d ∈ (toSpec st).attributes, d.key = k := by
  have hd := (attributes_listed toF l hs).1.2 k
  suffices H : k ∈ (toSpec st).attributes.map (·.key) by
    obtain ⟨d, h1, h2⟩ := List.mem_map.1 H; exact ⟨d, h1, h2⟩
  rw [hd]
  rcases hk with ⟨x, hx, h⟩ | ⟨x, hx, h⟩ | ⟨x, hx, h⟩
  · obtain ⟨s, h1, h2, a, h3, h4⟩ := (((spans_listed toF l hs).2 x hx).2.2.2 k).1 h
    refine ⟨1, _, .span x.type, a, ?_, h4⟩
    exact List.mem_flatMap.2 ⟨s, List.mem_filter.2 ⟨(mem_spansOf l s).2 h1, by simp [h2]⟩, h3⟩
  · obtain ⟨m, i, h1, h2, h3, ps, pt, a, h4, h6, h7, h5⟩ := (((metrics_listed toF l hs).2 x hx).2.2 k).1 h
    refine ⟨2, _, .metric x.name, a, ?_, h5⟩
    exact List.mem_flatMap.2 ⟨(i, m), List.mem_filter.2 ⟨(mem_metricsOf l i m).2 ⟨h1, h2⟩, by simp [h3]⟩,
      List.mem_flatMap.2 ⟨pt, List.mem_flatMap.2 ⟨ps, by simp [h4], h6⟩, h7⟩⟩
  · obtain ⟨as, hl | ⟨s, ev, g1, g3, g4, g5⟩, a, h4, h5⟩ := (((events_listed toF l hs).2 x hx).2 k).1 h
    · exact ⟨3, _, .log x.name, a, (mem_mvals_flatten _ _ _).2 ⟨as, (mem_logsOf l _ as).2 hl, h4⟩, h5⟩
    · exact ⟨1, _, .spanEvent s.name x.name, a, (mem_mvals_flatten _ _ _).2
        ⟨as, (mem_eventsOf_named l s.name x.name as).2 ⟨s, ev, g1, rfl, g3, g4, g5⟩, h4⟩, h5⟩

theorem compact_ne {e : Examples} (h : Compact e) : scalarsOf e ≠ [] := by
  cases e <;> simp only [Compact, scalarsOf] at * <;> first
    | (exact h.elim) | (intro h'; cases h'; done) | (intro h'; rw [List.map_eq_nil_iff] at h'; subst h'; simp at h; done)

/-- Every attribute has at most five examples, all distinct. -/
theorem examples_bounded (l : List Sample) {st : St} (hs : Shuffled (addSamples toF l) st) (d : DefOut)
    (hd : d ∈ (toSpec st).attributes) (ex : Examples) (he : d.attr.examples = some ex) :
    (scalarsOf ex).length ≤ 5 ∧ (scalarsOf ex).Nodup ∧ scalarsOf ex ≠ [] := by
  obtain ⟨i, s, _, ⟨_, _, _, _, hsh⟩, _⟩ := (attributes_listed toF l hs).2 d hd
  rw [he] at hsh
  obtain ⟨hc, e⟩ : Compact ex ∧ scalarsOf ex = _ := hsh
  refine ⟨?_, ?_, ?_⟩
  · rw [e]; unfold kept; split
    · simp
    · exact List.length_take_le _ _
  · rw [e]; unfold kept; split
    · simp
    · exact (uniq_spec _).1.sublist (List.take_sublist _ _)
  · exact compact_ne hc

/-- The order of the samples does not matter for which signals and attributes are listed. -/
theorem order_irrelevant {l l' : List Sample} (hp : l.Perm l') {st st' : St}
    (hs : Shuffled (addSamples toF l) st) (hs' : Shuffled (addSamples toF l') st') :
    (toSpec st).spans.map (fun s => (s.type, s.attrs)) = (toSpec st').spans.map (fun s => (s.type, s.attrs)) ∧
    (toSpec st).metrics.map (fun s => (s.name, s.attrs)) = (toSpec st').metrics.map (fun s => (s.name, s.attrs)) ∧
    (toSpec st).events = (toSpec st').events ∧
    (toSpec st).attributes.map (·.key) = (toSpec st').attributes.map (·.key) := by
  have hm : ∀ x, x ∈ l ↔ x ∈ l' := fun x => hp.mem_iff
  have hlift : ∀ {α : Type} (name : α → String) (val : α → List String) (a b : List α),
      a.map name = b.map name → (∀ x ∈ a, ∀ y ∈ b, name x = name y → val x = val y) →
      a.map (fun x => (name x, val x)) = b.map (fun x => (name x, val x)) := by
    intro α name val a
    induction a with
    | nil => intro b h _; cases b with | nil => rfl | cons _ _ => cases h
    | cons x a ih =>
      intro b h hv
      cases b with
      | nil => cases h
      | cons y b =>
        simp only [List.map_cons, List.cons.injEq] at h ⊢
        refine ⟨by rw [h.1, hv x (by simp) y (by simp) h.1], ih b h.2 fun u hu w hw => ?_⟩
        exact hv u (by simp [hu]) w (by simp [hw])
  refine ⟨?_, ?_, ?_, ?_⟩
  · obtain ⟨h1, h2⟩ := spans_listed toF l hs
    obtain ⟨h3, h4⟩ := spans_listed toF l' hs'
    refine hlift SpanOut.type SpanOut.attrs _ _ ?_ ?_
    · simp only [← hm] at h3; exact h1.unique h3
    · intro x hx y hy e
      have h5 := (h2 x hx).2.2
      have h6 := (h4 y hy).2.2
      simp only [← hm, ← e] at h6
      exact h5.unique h6
  · obtain ⟨h1, h2⟩ := metrics_listed toF l hs
    obtain ⟨h3, h4⟩ := metrics_listed toF l' hs'
    refine hlift MetricOut.name MetricOut.attrs _ _ ?_ ?_
    · simp only [← hm] at h3; exact h1.unique h3
    · intro x hx y hy e
      have h5 := (h2 x hx).2
      have h6 := (h4 y hy).2
      simp only [← hm, ← e] at h6
      exact h5.unique h6
  · obtain ⟨h1, h2⟩ := events_listed toF l hs
    obtain ⟨h3, h4⟩ := events_listed toF l' hs'
    have key := hlift EventOut.name EventOut.attrs (toSpec st).events (toSpec st').events ?_ ?_
    · have : ∀ a b : List EventOut, a.map (fun x => (x.name, x.attrs)) = b.map (fun x => (x.name, x.attrs)) → a = b := by
        intro a b h
        refine List.map_inj_right (f := fun x : EventOut => (x.name, x.attrs)) ?_ |>.1 h
        intro x y h; cases x; cases y; simp_all
      exact this _ _ key
    · simp only [HasEvent, ← hm] at h1 h3; exact h1.unique h3
    · intro x hx y hy e
      have h5 := h2 x hx
      have h6 := h4 y hy
      simp only [HasEvent, ← hm, ← e] at h5 h6
      exact h5.unique h6
  · have h1 := (attributes_listed toF l hs).1
    have h3 := (attributes_listed toF l' hs').1
    refine h1.unique (S := _) ?_
    refine ⟨h3.1, fun k => (h3.2 k).trans ?_⟩
    have hpl : ∀ {l l' : List Sample}, l.Perm l' → (∃ i samples, Place l' i samples ∧ ∃ a ∈ samples, a.name = k) →
        ∃ i samples, Place l i samples ∧ ∃ a ∈ samples, a.name = k := by
      intro l l' hp h
      have hm : ∀ x, x ∈ l ↔ x ∈ l' := fun x => hp.mem_iff
      obtain ⟨i, s, hpl, a, ha, e⟩ := h
      cases hpl with
      | resource =>
        refine ⟨0, _, .resource, a, ?_, e⟩
        obtain ⟨x, hx, h⟩ := List.mem_flatMap.1 ha
        exact List.mem_flatMap.2 ⟨x, (hm x).2 hx, h⟩
      | span n =>
        refine ⟨1, _, .span n, a, ?_, e⟩
        obtain ⟨x, hx, h⟩ := List.mem_flatMap.1 ha
        obtain ⟨h1, h2⟩ := List.mem_filter.1 hx
        exact List.mem_flatMap.2 ⟨x, List.mem_filter.2 ⟨(mem_spansOf _ _).2 ((hm _).2 ((mem_spansOf _ _).1 h1)), h2⟩, h⟩
      | spanEvent n en =>
        refine ⟨1, _, .spanEvent n en, a, ?_, e⟩
        obtain ⟨as, h1, h2⟩ := (mem_mvals_flatten _ _ _).1 ha
        obtain ⟨s, ev, g1, g⟩ := (mem_eventsOf_named _ _ _ _).1 h1
        exact (mem_mvals_flatten _ _ _).2 ⟨as, (mem_eventsOf_named _ _ _ _).2 ⟨s, ev, (hm _).2 g1, g⟩, h2⟩
      | metric n =>
        refine ⟨2, _, .metric n, a, ?_, e⟩
        obtain ⟨⟨i, x⟩, hx, h⟩ := List.mem_flatMap.1 ha
        obtain ⟨h1, h2⟩ := List.mem_filter.1 hx
        obtain ⟨h3, h4⟩ := (mem_metricsOf _ _ _).1 h1
        exact List.mem_flatMap.2 ⟨(i, x), List.mem_filter.2 ⟨(mem_metricsOf _ _ _).2 ⟨(hm _).2 h3, h4⟩, h2⟩, h⟩
      | log en =>
        refine ⟨3, _, .log en, a, ?_, e⟩
        obtain ⟨as, h1, h2⟩ := (mem_mvals_flatten _ _ _).1 ha
        obtain ⟨r, g1, g⟩ := (mem_logsOf _ _ _).1 h1
        exact (mem_mvals_flatten _ _ _).2 ⟨as, (mem_logsOf _ _ _).2 ⟨r, (hm _).2 g1, g⟩, h2⟩
    exact ⟨hpl hp, hpl hp.symm⟩

/-! ### Determinism -/

theorem shows_unique {a b : Option Examples} {l : List ValueSpec} (ha : Shows a l) (hb : Shows b l) : a = b := by
  cases a with
  | none =>
    cases b with
    | none => rfl
    | some b =>
      have h1 : l = [] := ha
      obtain ⟨hc, e⟩ : Compact b ∧ scalarsOf b = l := hb
      rw [h1] at e
      cases b <;> simp_all [Compact, scalarsOf]
  | some a =>
    obtain ⟨hc, e⟩ : Compact a ∧ scalarsOf a = l := ha
    cases b with
    | none =>
      have h1 : l = [] := hb
      rw [h1] at e
      cases a <;> simp_all [Compact, scalarsOf]
    | some b =>
      obtain ⟨hc', e'⟩ : Compact b ∧ scalarsOf b = l := hb
      rw [← e'] at e
      congr 1
      have inj : ∀ {α : Type} (f : α → ValueSpec), (∀ x y, f x = f y → x = y) → ∀ a b : List α, a.map f = b.map f → a = b :=
        fun f hf a b h => (List.map_inj_right (f := f) (fun _ _ h => hf _ _ h)).1 h
      have hi := inj ValueSpec.int (fun _ _ h => ValueSpec.int.inj h)
      have hb := inj ValueSpec.bool (fun _ _ h => ValueSpec.bool.inj h)
      have hd := inj ValueSpec.double (fun _ _ h => ValueSpec.double.inj h)
      have hs := inj ValueSpec.string (fun _ _ h => ValueSpec.string.inj h)
      have one : ∀ {α : Type} (f : α → ValueSpec) (x : ValueSpec) (l : List α), 2 ≤ l.length → [x] ≠ l.map f := by
        intro α f x l h e
        have := congrArg List.length e
        simp at this; omega
      have two : ∀ {α β : Type} (f : α → ValueSpec) (g : β → ValueSpec) (l : List α) (m : List β), 2 ≤ l.length →
          (∀ x y, f x ≠ g y) → l.map f ≠ m.map g := by
        intro α β f g l m h hne e
        cases l with
        | nil => simp at h
        | cons x l =>
          cases m with
          | nil => cases e
          | cons y m => simp only [List.map_cons, List.cons.injEq] at e; exact hne _ _ e.1
      cases a <;> cases b <;> simp only [scalarsOf, Compact] at e hc hc' <;> first
        | (exact hc.elim) | (exact hc'.elim)
        | (exact absurd e (one _ _ _ hc')) | (exact absurd e.symm (one _ _ _ hc))
        | (rw [hi _ _ e]) | (rw [hb _ _ e]) | (rw [hd _ _ e]) | (rw [hs _ _ e])
        | (exact absurd e (two _ _ _ _ hc (by intro x y h; cases h)))
        | (simp at e; subst e; rfl)
        | (simp at e)

theorem described_unique {l : List SAttr} {a b : Attr} (ha : Described toF l a) (hb : Described toF l b) : a = b := by
  obtain ⟨s, r, rfl, h1, h2⟩ := ha
  obtain ⟨s', r', e, h3, h4⟩ := hb
  cases e
  cases a; cases b
  simp only [Attr.mk.injEq]
  exact ⟨h1.trans h3.symm, shows_unique h2 h4⟩

/-- If all places that mention an attribute would describe it in the same way, then the registry inferred from given
samples does not depend on the iteration order of hash maps. -/
theorem infer_deterministic_partial (l : List Sample)
    (hag : ∀ k i j p q a b, Place l i p → Place l j q → Described toF (named k p) a → Described toF (named k q) b → a = b)
    {st st' : St} (hs : Shuffled (addSamples toF l) st) (hs' : Shuffled (addSamples toF l) st') :
    toSpec st = toSpec st' := by
  obtain ⟨o1, o2, o3, o4⟩ := order_irrelevant toF (List.Perm.refl l) hs hs'
  have hlift : ∀ {α β : Type} (f : α → β) (a b : List α), a.map f = b.map f →
      (∀ x ∈ a, ∀ y ∈ b, f x = f y → x = y) → a = b := by
    intro α β f a
    induction a with
    | nil => intro b h _; cases b with | nil => rfl | cons _ _ => cases h
    | cons x a ih =>
      intro b h hv
      cases b with
      | nil => cases h
      | cons y b =>
        simp only [List.map_cons, List.cons.injEq] at h ⊢
        exact ⟨hv x (by simp) y (by simp) h.1, ih b h.2 fun u hu w hw => hv u (by simp [hu]) w (by simp [hw])⟩
  have e1 : (toSpec st).spans = (toSpec st').spans := by
    refine hlift _ _ _ o1 fun x hx y hy e => ?_
    obtain ⟨n1, ⟨s, r, k1, k2⟩, _⟩ := (spans_listed toF l hs).2 x hx
    obtain ⟨n2, ⟨s', r', k3, k4⟩, _⟩ := (spans_listed toF l hs').2 y hy
    simp only [Prod.mk.injEq] at e
    rw [← e.1, k1] at k3; cases k3
    cases x; cases y
    simp_all
  have e2 : (toSpec st).metrics = (toSpec st').metrics := by
    refine hlift _ _ _ o2 fun x hx y hy e => ?_
    obtain ⟨⟨i, m, r, k1, k2, k3⟩, _⟩ := (metrics_listed toF l hs).2 x hx
    obtain ⟨⟨i', m', r', k4, k5, k6⟩, _⟩ := (metrics_listed toF l hs').2 y hy
    simp only [Prod.mk.injEq] at e
    rw [← e.1, k1] at k4; cases k4
    cases x; cases y
    simp_all
  have e4 : (toSpec st).attributes = (toSpec st').attributes := by
    refine hlift _ _ _ o4 fun x hx y hy e => ?_
    obtain ⟨i, p, h1, h2, _⟩ := (attributes_listed toF l hs).2 x hx
    obtain ⟨j, q, h3, h4, _⟩ := (attributes_listed toF l hs').2 y hy
    cases x; cases y
    simp only at e h2 h4; subst e
    rw [hag _ i j p q _ _ h1 h3 h2 h4]
  cases hA : toSpec st; cases hB : toSpec st'
  rw [hA, hB] at e1 e2 o3 e4
  simp_all

end Verif.Infer
