import Verif.Jq.Props
/-
C245-C249: signals, root namespaces, results and errors of filters.
-/
namespace Verif.Jq
open Verif.Util

/-! ### C245: signals -/

/-- The signals of a kind. -/
def Reg.sigs (k : Kind) : Reg → List Sig
  | .v2 _ ms ss es ens => match k with
    | .metric => ms | .span => ss | .event => es | .entity => ens
  | .v1 gs => gs.filter fun g => g.type == k.text

/-- What a signal of version 2 is called. -/
def sigName (k : Kind) (s : Sig) : String :=
  match k with
  | .metric => s.name.getD "" | .event => s.name.getD "" | .span => s.type | .entity => s.type

/-- The root namespace of a signal. -/
def sigRoot (k : Kind) (o : Options) (s : Sig) : String := if o.v2 then rootV2 (sigName k s) else rootSigV1 s.id

/-- A signal with the attributes and members that pass, and with its root namespace. -/
def shownSig (p : Common → Bool) (root : Sig → String) (s : Sig) : Sig :=
  { s with
    attributes := s.attributes.map fun as => (as.filter fun a => p a.common).map fun a =>
      { a with members := a.members.map (List.filter fun m => p m.common) }
    root := root s }

theorem signals_kept (k : Kind) (o : Options) (r : Reg) (h : Fits o r) :
    ∃ l, semconvSignals k o r = some l ∧ Sorted (optLe (sortKey k)) l ∧
      l.Perm ((r.sigs k).filter (fun s => kept o s.common && rootWanted o (sigRoot k o s)) |>.map
        (shownSig (kept o) (sigRoot k o))) := by
  have key : ∀ (ss : List Sig) (root : Sig → String),
      (sortBy (optLe (sortKey k)) (sortBy (strLe (·.root)) (rootFilter (·.root) o
        ((filters sigView o (ss.map fun s => { s with root := root s })).map (filterNested o))))).Perm
        ((ss.filter fun s => kept o s.common && rootWanted o (root s)).map (shownSig (kept o) root)) := by
    intro ss root
    refine (sortBy_perm _ _).trans ((sortBy_perm _ _).trans ?_)
    rw [rootFilter_eq, filters_eq sigView_lawful]
    unfold selectBoth
    have e1 : ((fun a : Sig => kept o (sigView.common a)) ∘ fun s : Sig => { s with root := root s })
        = fun a => kept o a.common := rfl
    have e2 : (filterNested o ∘ sigView.mapMembers (List.filter fun m => kept o m.common)) ∘ (fun s : Sig => { s with root := root s })
        = shownSig (kept o) root := by
      funext s
      unfold filterNested shownSig
      simp only [Function.comp, sigView, funext (filters_eq attrView_lawful o)]
      rfl
    have e3 : ((fun a : Sig => rootWanted o a.root) ∘ shownSig (kept o) root) = fun a => rootWanted o (root a) := rfl
    rw [List.filter_map (p := fun a => kept o (sigView.common a)), List.map_map, List.map_map, e1, e2, List.filter_map, e3,
      List.filter_filter]
    refine List.Perm.of_eq ?_
    congr 1
    congr 1
    funext a
    exact Bool.and_comm _ _
  cases r with
  | v2 as ms ss es ens =>
    have h : o.v2 = true := h
    have hr : sigRoot k o = fun s => rootV2 (getId k s) := by funext s; unfold sigRoot; rw [h]; cases k <;> rfl
    refine ⟨_, by unfold semconvSignals semconvSignal; simp only [h]; rfl, sortBy_sorted (optLe_total _) _, ?_⟩
    rw [hr]
    exact key _ _
  | v1 gs =>
    have h : o.v2 = false := h
    have hr : sigRoot k o = fun s => rootSigV1 s.id := by funext s; unfold sigRoot; rw [h]; rfl
    refine ⟨_, by unfold semconvSignals semconvSignal; simp only [h]; rfl, sortBy_sorted (optLe_total _) _, ?_⟩
    rw [hr]
    exact key _ _

/-- C245. Unless `ignore_code_generation_annotations` is `false`, the result has exactly the signals of the kind that the options
ask for, each as often as the registry has it, with those of its `attributes` and their members the options ask for, in the
order of the sort key. -/
theorem signals_exact_partial (k : Kind) (o : Options) (r : Reg) (h : Fits o r) (hi : o.ignoreAnnotations ≠ some false) :
    ∃ l, semconvSignals k o r = some l ∧ Sorted (optLe (sortKey k)) l ∧
      l.Perm ((r.sigs k).filter (fun s => wanted o s.common && rootWanted o (sigRoot k o s)) |>.map
        (shownSig (wanted o) (sigRoot k o))) := by
  rw [← kept_wanted hi]; exact signals_kept k o r h

/-- C245. So no attribute in `attributes` of a signal in the result is one the options exclude. -/
theorem nested_wanted (k : Kind) (o : Options) (r : Reg) (h : Fits o r) (hi : o.ignoreAnnotations ≠ some false) {l : List Sig}
    (hl : semconvSignals k o r = some l) : ∀ s ∈ l, wanted o s.common = true ∧
      ∀ as, s.attributes = some as → ∀ a ∈ as, wanted o a.common = true ∧
        ∀ ms, a.members = some ms → ∀ m ∈ ms, wanted o m.common = true := by
  obtain ⟨l', hl', -, hp⟩ := signals_exact_partial k o r h hi
  rw [hl] at hl'
  cases hl'
  intro s hs
  obtain ⟨s0, hs0, rfl⟩ := List.mem_map.1 (hp.mem_iff.1 hs)
  have hw := (List.mem_filter.1 hs0).2
  rw [Bool.and_eq_true] at hw
  refine ⟨hw.1, ?_⟩
  intro as has a ha
  obtain ⟨as0, -, rfl⟩ := Option.map_eq_some_iff.1 has
  obtain ⟨a0, ha0, rfl⟩ := List.mem_map.1 ha
  refine ⟨(List.mem_filter.1 ha0).2, ?_⟩
  intro ms hms m hm
  obtain ⟨ms0, -, rfl⟩ := Option.map_eq_some_iff.1 hms
  exact (List.mem_filter.1 hm).2

/-- C245. The attributes of entities of version 2 are not filtered: they are in `identity` and `description`. -/
theorem entity_attributes_refuted : ∃ (r : Reg) (o : Options), o.v2 = true ∧ o.stableOnly = true ∧ o.excludeDeprecated = true ∧
    ∃ s ∈ r.sigs .entity, ∃ a ∈ s.identity, wanted o a.common = false ∧ (semconvSignals .entity o r).map (·.map (·.identity)) = some [[a]] := by
  let a : Attr := { name := "host.id", common := { stability := some "development", deprecated := true } }
  let s : Sig := { type := "host", common := { stability := some "stable" }, identity := [a] }
  exact ⟨.v2 [] [] [] [] [s], { v2 := true, stableOnly := true, excludeDeprecated := true }, rfl, rfl, rfl, s,
    List.mem_singleton.2 rfl, a, List.mem_singleton.2 rfl, by decide +kernel, by decide +kernel⟩

/-! ### C246: groups of signals -/

/-- C246. The grouped signals are one group for each root namespace, in the order of the namespaces, with exactly the signals of
the namespace, in the order of the sort key. -/
theorem grouped_signals (k : Kind) (o : Options) (r : Reg) {l : List Sig} (h : semconvSignals k o r = some l) :
    ∃ gs, groupedSignals k o r = some gs ∧ Groups (·.root) (optLe (sortKey k)) l gs := by
  unfold groupedSignals
  rw [h]
  exact ⟨_, rfl, grouped_spec _ (optLe_total _) l⟩

/-- C246. In version 1 spans are in no order by what tells them apart: their `type` is `span`. -/
theorem span_order_refuted : ∃ gs : List Sig,
    (groupedSignals .span {} (.v1 gs)).map (·.map fun g => (g.1, g.2.map (·.id))) =
      some [("http", ["span.http.server", "span.http.client"])] ∧ ¬ "span.http.server" ≤ "span.http.client" :=
  ⟨[{ id := "span.http.server", type := "span" }, { id := "span.http.client", type := "span" }],
    by decide +kernel, by decide +kernel⟩

/-- C246. The order of metrics. -/
example : (groupedSignals .metric {} (.v1 [
      { id := "metric.http.b", type := "metric", metricName := some "http.b" },
      { id := "metric.db.x", type := "metric", metricName := some "db.x" },
      { id := "metric.http.a", type := "metric", metricName := some "http.a" }])).map (·.map fun g => (g.1, g.2.map (·.id))) =
    some [("db", ["metric.db.x"]), ("http", ["metric.http.a", "metric.http.b"])] := by decide +kernel

/-! ### C247: root namespaces -/

/-- What stands before the first dot. -/
def IsRoot (r n : String) : Prop :=
  '.' ∉ r.toList ∧ (n = r ∨ ∃ rest, n.toList = r.toList ++ '.' :: rest)

theorem part_head {n : String} {r : Chars} (hr : '.' ∉ r) (rest : Option Chars)
    (hn : n.toList = r ++ (match rest with | none => [] | some t => '.' :: t)) :
    parts n = r :: (match rest with | none => [] | some t => splitWhen (· == '.') t) := by
  have hclean : splitWhen (· == '.') r = [r] := by
    refine splitWhen_clean ?_
    intro c hc
    simp only [beq_eq_false_iff_ne, ne_eq]
    rintro rfl
    exact hr hc
  unfold parts
  cases rest with
  | none => dsimp only at hn ⊢; rw [hn, List.append_nil]; exact hclean
  | some t => dsimp only at hn ⊢; rw [hn]; rw [splitWhen_append r t (by rfl), hclean]; rfl

theorem rootV2_of_isRoot {r n : String} (h : IsRoot r n) : rootV2 n = r := by
  obtain ⟨h1, h2⟩ := h
  unfold rootV2 part
  rcases h2 with rfl | ⟨t, h2⟩
  · rw [part_head h1 none (by simp)]; simp
  · rw [part_head h1 (some t) h2]; simp

theorem exists_root (n : String) : ∃ r, IsRoot r n := by
  cases hp : splitWhen (· == '.') n.toList with
  | nil => exact absurd hp (splitWhen_ne_nil _ _)
  | cons w ws =>
    obtain ⟨b, hb, h1, -, -⟩ := splitWhen_head hp
    have hw : '.' ∉ w := fun hm => by
      have := splitWhen_pieces (· == '.') n.toList w (by rw [hp]; exact List.mem_cons_self) '.' hm
      cases this
    refine ⟨String.ofList w, by simpa using hw, ?_⟩
    cases b with
    | nil => left; apply String.toList_inj.1; simp [hb]
    | cons c t =>
      right
      have := h1 c rfl
      rw [beq_iff_eq] at this
      subst this
      exact ⟨t, by simp [hb]⟩

/-- C247. In version 2 the root namespace is what stands before the first dot. -/
theorem root_v2 (r n : String) : rootV2 n = r ↔ IsRoot r n := by
  constructor
  · intro h
    obtain ⟨r', hr'⟩ := exists_root n
    rw [← h, rootV2_of_isRoot hr']
    exact hr'
  · exact rootV2_of_isRoot

/-- C247. Attributes whose names have a dot have the same root namespace in both versions. -/
theorem attr_root_agrees_partial {n : String} (h : '.' ∈ n.toList) : rootAttrV1 n = rootV2 n := by
  unfold rootAttrV1
  rw [List.contains_iff_mem.2 h]
  rfl

/-- C247. Others do not. -/
theorem attr_root_refuted : ∃ n, rootAttrV1 n = "other" ∧ rootV2 n = n ∧ n ≠ "other" := ⟨"host", by decide +kernel⟩

/-- C247. A group of version 1 whose id is a prefix without dots (as `span` and `metric`), a dot and a name, has the root
namespace of the name. -/
theorem sig_root_agrees_partial {id p n : String} (hp : '.' ∉ p.toList) (h : id.toList = p.toList ++ '.' :: n.toList) :
    rootSigV1 id = rootV2 n := by
  unfold rootSigV1 rootV2 part
  have hc : id.toList.contains '.' = true := by rw [List.contains_iff_mem, h]; simp
  rw [hc, part_head hp (some n.toList) h]
  rfl

/-- C247. Without such a prefix the second part is the root namespace, which is not one of the name. -/
theorem sig_root_refuted : ∃ id r, rootSigV1 id = r ∧ ¬ IsRoot r id ∧ IsRoot "http" id := by
  refine ⟨"http.client", "client", by decide +kernel, ?_, ?_⟩
  · intro h
    have := rootV2_of_isRoot h
    revert this
    decide +kernel
  · exact (root_v2 _ _).1 (by decide +kernel)

/-! ### C248: results of filters -/

variable {V J E : Type}

/-- C248. A filter fails exactly if one of its results is an error, and then with all errors in order. -/
theorem bundle_error (toSerde : V → J) (array : List J → J) (rs : List (Except E V)) (es : List E) :
    bundle toSerde array rs = .error es ↔ es ≠ [] ∧ es = rs.filterMap (fun r => match r with | .error e => some e | .ok _ => none) := by
  unfold bundle
  dsimp only
  split
  · rename_i h
    constructor
    · intro e
      cases e
      exact ⟨h, rfl⟩
    · rintro ⟨-, rfl⟩; rfl
  · rename_i h
    have h := Classical.byContradiction h
    constructor
    · intro e; split at e <;> cases e
    · rintro ⟨h1, rfl⟩; exact absurd h h1

/-- C248. If all results are values then they are the result: a single one by itself, else the list of them. -/
theorem bundle_ok (toSerde : V → J) (array : List J → J) (vs : List V) :
    bundle (E := E) toSerde array (vs.map .ok) =
      .ok (match vs with | [v] => toSerde v | _ => array (vs.map toSerde)) := by
  unfold bundle
  dsimp only
  rw [List.filterMap_map, List.filterMap_map]
  have h1 : ∀ l : List V, l.filterMap (fun _ => (none : Option E)) = [] := fun l => by simp
  have h2 : ∀ l : List V, l.filterMap (fun v => some (toSerde v)) = l.map toSerde := fun l => by simp
  simp only [Function.comp_def, h1, h2]
  cases vs with
  | nil => rfl
  | cons v vs => cases vs <;> rfl

/-- C248. A value that is no JSON when it is printed becomes `null` without an error, as `val_to_serde` reads it. -/
theorem unreadable_refuted (print : V → String) (parse : String → Option J) (null : J) (array : List J → J) (v : V)
    (h : parse (print v) = none) :
    bundle (E := E) (fun v => (parse (print v)).getD null) array [.ok v] = .ok null := by
  show Except.ok ((parse (print v)).getD null) = _
  rw [h]; rfl

/-- C248. A filter that gives one list cannot be told from one that gives the elements. -/
theorem one_list_refuted (array : List J → J) (a b : J) :
    bundle (E := E) (fun x => x) array [.ok (array [a, b])] = bundle (E := E) (fun x => x) array [.ok a, .ok b] := rfl

/-! ### C249: places of errors -/

theorem step_line (l : Location) (s : Chars) : (s.foldl Location.step l).line = l.line + s.count '\n' := by
  induction s generalizing l with
  | nil => rfl
  | cons c s ih =>
    rw [List.foldl_cons, ih]
    unfold Location.step
    split
    · rename_i h; subst h; simp; omega
    · rename_i h; rw [List.count_cons_of_ne h]

theorem step_col_line (l : Location) {s : Chars} (h : '\n' ∉ s) : (s.foldl Location.step l).col = l.col + s.length := by
  induction s generalizing l with
  | nil => rfl
  | cons c s ih =>
    rw [List.foldl_cons, ih _ (fun hm => h (List.mem_cons_of_mem _ hm))]
    unfold Location.step
    rw [if_neg (fun e => h (by rw [e]; exact List.mem_cons_self))]
    simp; omega

theorem step_col_after (l : Location) (a b : Chars) (h : '\n' ∉ b) :
    ((a ++ '\n' :: b).foldl Location.step l).col = 1 + b.length := by
  rw [List.foldl_append, List.foldl_cons, step_col_line _ h]
  unfold Location.step
  rw [if_pos rfl]

/-- C249. The line of an error is one more than the line breaks before it, the column one more than the characters between the
last of them and it; the same for where it ends. -/
theorem source_place (before part : Chars) :
    (getSource before part).1.line = 1 + before.count '\n' ∧
    (getSource before part).2.line = 1 + (before ++ part).count '\n' ∧
    (∀ a b, '\n' ∉ b → (before = b ∨ before = a ++ '\n' :: b) → (getSource before part).1.col = 1 + b.length) ∧
    (∀ a b, '\n' ∉ b → (before ++ part = b ∨ before ++ part = a ++ '\n' :: b) →
      (getSource before part).2.col = 1 + b.length) := by
  have e2 : (getSource before part).2 = (before ++ part).foldl Location.step { line := 1, col := 1 } := by
    unfold getSource; rw [List.foldl_append]
  have key : ∀ s a b : Chars, '\n' ∉ b → (s = b ∨ s = a ++ '\n' :: b) →
      (s.foldl Location.step { line := 1, col := 1 }).col = 1 + b.length := by
    intro s a b hb h
    rcases h with rfl | rfl
    · rw [step_col_line _ hb]
    · exact step_col_after _ _ _ hb
  refine ⟨step_line _ _, ?_, fun a b hb h => key _ a b hb h, ?_⟩
  · rw [e2]; exact step_line _ _
  · rw [e2]; exact fun a b hb h => key _ a b hb h

/-- C249. An error in the second line. -/
example : getSource ".x\n| ".toList "de".toList = (⟨2, 3⟩, ⟨2, 5⟩) := by decide +kernel

end Verif.Jq
