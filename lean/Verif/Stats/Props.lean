import Verif.Stats.Model
import Verif.Convert.OkProps
/-
C214, C215: the statistics of a registry count what is in it.
-/
namespace Verif.Stats
open Verif.Util Verif.Resolver Verif.Semconv Verif.Convert

/-! ### Specification -/

/-- How many items have this key. -/
def numOf {α κ : Type} [DecidableEq κ] (key : α → κ) (k : κ) (l : List α) : Nat :=
  (l.filter fun a => decide (key a = k)).length

/-- `m` says for every key how many items have it; a key no item has is not there. The numbers add up. -/
structure Counts {α κ : Type} [DecidableEq κ] (key : α → κ) (l : List α) (m : List (κ × Nat)) : Prop where
  once : (m.map Prod.fst).Nodup
  none : ∀ k, get k m = none ↔ ∀ a ∈ l, key a ≠ k
  some : ∀ k n, get k m = some n → n = numOf key k l
  total : (m.map Prod.snd).sum = l.length

/-- `s` is the set of the keys of the items. -/
def Names {α κ : Type} (key : α → κ) (l : List α) (s : List κ) : Prop := s.Nodup ∧ ∀ k, k ∈ s ↔ ∃ a ∈ l, key a = k

/-- The statistics of a list of signals of the second format. -/
structure Common2Of (l : List Common) (s : Common2) : Prop where
  count : s.count = l.length
  stability : Counts (·.stability) l s.stability
  deprecated : s.deprecated = (l.filter fun c => c.deprecated.isSome).length
  withNote : s.withNote = (l.filter fun c => decide (c.note ≠ "")).length

/-- The statistics of the groups `gs` of the type `t`. -/
structure Stats1Of (t : GroupType) (gs : List Grp) (s : Stats1) : Prop where
  count : s.common.count = gs.length
  attributes : s.common.attributes = (gs.map fun g => g.attributes.length).sum
  withNote : s.common.withNote = (gs.filter fun g => decide (g.note ≠ "")).length
  deprecated : s.common.deprecated = (gs.filter fun g => g.deprecated.isSome).length
  stability : Counts id (gs.filterMap (·.stability)) s.common.stability
  cards : Counts (fun g : Grp => g.attributes.length) gs s.common.cards
  names : t = .metric → Names id (gs.filterMap (·.metricName)) s.names
  instruments : t = .metric → Counts id (gs.filterMap (·.instrument)) s.instruments
  units : t = .metric → Counts id (gs.filterMap (·.unit)) s.units
  kinds : t = .span → Counts id (gs.filterMap (·.spanKind)) s.kinds

/-! ### Counting -/

section
variable {α κ V : Type} [DecidableEq κ]

theorem get_none_iff (k : κ) (m : List (κ × V)) : get k m = none ↔ k ∉ m.map Prod.fst := by
  induction m with
  | nil => simp [get]
  | cons p m ih =>
    obtain ⟨k', v⟩ := p
    simp only [get, List.map_cons, List.mem_cons, not_or]
    split
    · rename_i h; simp [h]
    · rename_i h; rw [ih]; exact ⟨fun hm => ⟨fun e => h e.symm, hm⟩, fun hm => hm.2⟩

theorem get_bump (k k' : κ) (m : List (κ × Nat)) :
    get k' (bump k m) = if k = k' then some ((get k m).getD 0 + 1) else get k' m := by
  induction m with
  | nil => simp [bump, get]
  | cons p m ih =>
    obtain ⟨a, n⟩ := p
    simp only [bump]
    by_cases h : a = k
    · subst h
      simp only [if_true, get]
      split <;> simp_all
    · simp only [h, if_false, get, ih]
      by_cases h2 : k = k'
      · subst h2; simp [h]
      · simp [h2]

theorem keys_bump (k : κ) (m : List (κ × Nat)) (x : κ) : x ∈ (bump k m).map Prod.fst ↔ x = k ∨ x ∈ m.map Prod.fst := by
  induction m with
  | nil => simp [bump]
  | cons p m ih =>
    obtain ⟨a, n⟩ := p
    simp only [bump]
    by_cases h : a = k
    · subst h; simp
    · simp only [h, if_false, List.map_cons, List.mem_cons, ih]
      constructor
      · rintro (h | h | h) <;> simp [h]
      · rintro (h | h | h) <;> simp [h]

theorem nodup_bump (k : κ) (m : List (κ × Nat)) (h : (m.map Prod.fst).Nodup) : ((bump k m).map Prod.fst).Nodup := by
  induction m with
  | nil => simp [bump]
  | cons p m ih =>
    obtain ⟨a, n⟩ := p
    simp only [List.map_cons, List.nodup_cons] at h
    simp only [bump]
    by_cases hk : a = k
    · subst hk; simpa using h
    · simp only [hk, if_false, List.map_cons, List.nodup_cons]
      refine ⟨?_, ih h.2⟩
      rw [keys_bump]
      rintro (rfl | h')
      · exact hk rfl
      · exact h.1 h'

theorem sum_bump (k : κ) (m : List (κ × Nat)) : ((bump k m).map Prod.snd).sum = (m.map Prod.snd).sum + 1 := by
  induction m with
  | nil => simp [bump]
  | cons p m ih =>
    obtain ⟨a, n⟩ := p
    simp only [bump]
    split
    · simp only [List.map_cons, List.sum_cons]; omega
    · simp only [List.map_cons, List.sum_cons, ih]; omega

theorem counts_nil (key : α → κ) : Counts key ([] : List α) [] :=
  ⟨by simp, by simp [get], by simp [get], by simp⟩

theorem numOf_append (key : α → κ) (k : κ) (l l' : List α) : numOf key k (l ++ l') = numOf key k l + numOf key k l' := by
  simp [numOf]

theorem numOf_zero {key : α → κ} {k : κ} {l : List α} (h : ∀ a ∈ l, key a ≠ k) : numOf key k l = 0 := by
  simp only [numOf, List.length_eq_zero_iff, List.filter_eq_nil_iff]
  simpa using h

theorem counts_snoc {key : α → κ} {l : List α} {m : List (κ × Nat)} (h : Counts key l m) (a : α) :
    Counts key (l ++ [a]) (bump (key a) m) where
  once := nodup_bump _ _ h.once
  none k := by
    rw [get_bump]
    split
    · rename_i hk
      simp only [reduceCtorEq, false_iff]
      intro hn
      exact hn a (by simp) hk
    · rename_i hk
      rw [h.none]
      constructor
      · intro hn b hb
        rcases List.mem_append.1 hb with hb | hb
        · exact hn b hb
        · rw [List.mem_singleton.1 hb]; exact hk
      · intro hn b hb; exact hn b (List.mem_append_left _ hb)
  some k n hn := by
    rw [get_bump] at hn
    rw [numOf_append]
    split at hn
    · rename_i hk
      cases hn
      subst hk
      have h1 : numOf key (key a) [a] = 1 := by simp [numOf]
      rw [h1]
      cases hg : get (key a) m with
      | none => rw [numOf_zero ((h.none _).1 hg)]; rfl
      | some n => rw [h.some _ _ hg]; rfl
    · rename_i hk
      have h1 : numOf key k [a] = 0 := numOf_zero (by simpa using hk)
      rw [h1, h.some _ _ hn]; rfl
  total := by rw [sum_bump, h.total]; simp

theorem counts_foldl {β : Type} (key : α → κ) (f : β → α) (pre : List α) (l : List β) (m : List (κ × Nat))
    (h : Counts key pre m) : Counts key (pre ++ l.map f) (l.foldl (fun m b => bump (key (f b)) m) m) := by
  induction l generalizing pre m with
  | nil => simpa using h
  | cons b l ih =>
    have := ih (pre ++ [f b]) _ (counts_snoc h (f b))
    simpa using this

/-- A loop over `entry(k).or_insert(0) += 1` counts. -/
theorem counts_of (key : α → κ) (l : List α) : Counts key l (l.foldl (fun m a => bump (key a) m) []) := by
  have := counts_foldl key id [] l [] (counts_nil key)
  simpa using this

theorem names_add {key : α → κ} {l : List α} {s : List κ} (h : Names key l s) (a : α) :
    Names key (l ++ [a]) (add (key a) s) := by
  unfold add
  split
  · rename_i hm
    refine ⟨h.1, fun k => ?_⟩
    rw [h.2]
    constructor
    · rintro ⟨b, hb, hk⟩; exact ⟨b, List.mem_append_left _ hb, hk⟩
    · rintro ⟨b, hb, hk⟩
      rcases List.mem_append.1 hb with hb | hb
      · exact ⟨b, hb, hk⟩
      · rw [List.mem_singleton.1 hb] at hk
        subst hk; exact (h.2 _).1 hm
  · rename_i hm
    refine ⟨?_, fun k => ?_⟩
    · rw [List.nodup_append]
      refine ⟨h.1, by simp, ?_⟩
      intro x hx y hy
      rw [List.mem_singleton.1 hy]
      rintro rfl; exact hm hx
    · rw [List.mem_append, h.2, List.mem_singleton]
      constructor
      · rintro (⟨b, hb, hk⟩ | rfl)
        · exact ⟨b, List.mem_append_left _ hb, hk⟩
        · exact ⟨a, by simp, rfl⟩
      · rintro ⟨b, hb, hk⟩
        rcases List.mem_append.1 hb with hb | hb
        · exact .inl ⟨b, hb, hk⟩
        · rw [List.mem_singleton.1 hb] at hk; exact .inr hk.symm

theorem names_foldl (key : α → κ) (pre l : List α) (s : List κ) (h : Names key pre s) :
    Names key (pre ++ l) (l.foldl (fun s a => add (key a) s) s) := by
  induction l generalizing pre s with
  | nil => simpa using h
  | cons a l ih =>
    have := ih (pre ++ [a]) _ (names_add h a)
    simpa using this

theorem names_of (key : α → κ) (l : List α) : Names key l (l.foldl (fun s a => add (key a) s) []) := by
  have := names_foldl key [] l [] ⟨by simp, by simp⟩
  simpa using this

end

/-! ### C214 -/

theorem count_if {α : Type} (p : α → Bool) (l : List α) (n : Nat) :
    l.foldl (fun n a => if p a then n + 1 else n) n = n + (l.filter p).length := by
  induction l generalizing n with
  | nil => simp
  | cons a l ih =>
    simp only [List.foldl_cons, ih, List.filter_cons]
    split
    · simp only [List.length_cons]; omega
    · rfl

theorem common2_spec (l : List Common) : Common2Of l (common2 l) := by
  have key : ∀ (pre l : List Common) (s : Common2), Counts (·.stability) pre s.stability →
      s.deprecated = (pre.filter fun c => c.deprecated.isSome).length →
      s.withNote = (pre.filter fun c => decide (c.note ≠ "")).length →
      Counts (·.stability) (pre ++ l) (l.foldl step2 s).stability ∧
      (l.foldl step2 s).deprecated = ((pre ++ l).filter fun c => c.deprecated.isSome).length ∧
      (l.foldl step2 s).withNote = ((pre ++ l).filter fun c => decide (c.note ≠ "")).length := by
    intro pre l
    induction l generalizing pre with
    | nil => intro s h1 h2 h3; rw [List.append_nil]; exact ⟨h1, h2, h3⟩
    | cons c l ih =>
      intro s h1 h2 h3
      have := ih (pre ++ [c]) (step2 s c) (counts_snoc h1 c) ?_ ?_
      · simpa using this
      · simp only [step2, List.filter_append, List.length_append, List.filter_cons, List.filter_nil, h2]
        split <;> simp
      · simp only [step2, List.filter_append, List.length_append, List.filter_cons, List.filter_nil, h3]
        by_cases hc : c.note = "" <;> simp [hc]
  obtain ⟨h1, h2, h3⟩ := key [] l {} (counts_nil _) rfl rfl
  exact ⟨rfl, h1, h2, h3⟩

/-- C214: every number of the statistics of a registry of the second format is the number of such signals. -/
theorem stats2_partial (typeText : String → String) (o : Out) :
    let s := stats2 typeText o
    let as := o.attributes.filterMap fun r => o.catalog[r]?
    s.attributes.count = o.attributes.length ∧ Counts (fun a : A2 => typeText a.type) as s.attributes.types ∧
    Counts (fun a : A2 => a.common.stability) as s.attributes.stability ∧
    s.attributes.deprecated = (as.filter fun a => a.common.deprecated.isSome).length ∧
    Common2Of (o.metrics.map (·.common)) s.metrics ∧ Names (·.name) o.metrics s.metricNames ∧
    Counts (·.instrument) o.metrics s.instruments ∧ Counts (·.unit) o.metrics s.units ∧
    Common2Of (o.spans.map (·.common)) s.spans ∧ Counts (·.kind) o.spans s.kinds ∧
    Common2Of (o.events.map (·.common)) s.events ∧ Names (·.name) o.events s.eventNames ∧
    Common2Of (o.entities.map (·.common)) s.entities ∧ Names (·.type) o.entities s.entityTypes ∧
    Counts (fun e : Entity => e.identity.length) o.entities s.identityLengths ∧ s.groups.count = o.groups.length := by
  refine ⟨rfl, counts_of _ _, counts_of _ _, ?_, common2_spec _, names_of _ _, counts_of _ _, counts_of _ _, common2_spec _,
    counts_of _ _, common2_spec _, names_of _ _, common2_spec _, names_of _ _, counts_of _ _, rfl⟩
  have := count_if (fun a : A2 => a.common.deprecated.isSome) (o.attributes.filterMap fun r => o.catalog[r]?) 0
  simpa [stats2] using this

/-- C214: for a registry that resolution made, the types and the stabilities of the attributes add up to their number. -/
theorem attributes_add_up (typeText : String → String) (i : In) (o : Out) (h : convert i = .ok o) :
    ((stats2 typeText o).attributes.types.map Prod.snd).sum = (stats2 typeText o).attributes.count ∧
    ((stats2 typeText o).attributes.stability.map Prod.snd).sum = (stats2 typeText o).attributes.count := by
  obtain ⟨h1, h2, h3, _⟩ := stats2_partial typeText o
  rw [h2.total, h3.total, h1]
  have hlen : ∀ l : List Nat, (∀ n ∈ l, n < o.catalog.length) → (l.filterMap fun r => o.catalog[r]?).length = l.length := by
    intro l
    induction l with
    | nil => intro _; rfl
    | cons n l ih =>
      intro hl
      have hn := hl n (by simp)
      rw [List.filterMap_cons, List.getElem?_eq_getElem hn]
      simp only [List.length_cons]
      rw [ih fun m hm => hl m (by simp [hm])]
  have := hlen o.attributes fun n hn => by
    obtain ⟨_, _, _, _, b, hb, _⟩ := ((registry_attributes i o h).2 n).1 hn
    exact (List.getElem?_eq_some_iff.1 hb).1
  exact ⟨this, this⟩

/-- C214: attribute groups have a stability, may be deprecated and have a note like signals, but these are not counted. -/
theorem groups_uncounted_refuted : ∃ o : Out, ¬ Common2Of (o.groups.map (·.common)) (stats2 id o).groups := by
  refine ⟨{ groups := [⟨"a", [], ⟨"", "n", .stable, none, []⟩, {}⟩] }, fun h => ?_⟩
  have := h.stability.total
  simp [stats2] at this

/-! ### C215 -/

section
variable {κ V : Type} [DecidableEq κ]

theorem get_put (k k' : κ) (v : V) (m : List (κ × V)) : get k' (put k v m) = if k = k' then some v else get k' m := by
  induction m with
  | nil => simp [put, get]
  | cons p m ih =>
    obtain ⟨a, w⟩ := p
    simp only [put]
    by_cases h : a = k
    · subst h; simp only [if_true, get]; split <;> rfl
    · simp only [h, if_false, get, ih]
      by_cases h2 : k = k'
      · subst h2; simp [h]
      · simp [h2]

theorem keys_put (k : κ) (v : V) (m : List (κ × V)) (x : κ) : x ∈ (put k v m).map Prod.fst ↔ x = k ∨ x ∈ m.map Prod.fst := by
  induction m with
  | nil => simp [put]
  | cons p m ih =>
    obtain ⟨a, n⟩ := p
    simp only [put]
    by_cases h : a = k
    · subst h; simp
    · simp only [h, if_false, List.map_cons, List.mem_cons, ih]
      constructor
      · rintro (h | h | h) <;> simp [h]
      · rintro (h | h | h) <;> simp [h]

theorem nodup_put (k : κ) (v : V) (m : List (κ × V)) (h : (m.map Prod.fst).Nodup) : ((put k v m).map Prod.fst).Nodup := by
  induction m with
  | nil => simp [put]
  | cons p m ih =>
    obtain ⟨a, n⟩ := p
    simp only [List.map_cons, List.nodup_cons] at h
    simp only [put]
    by_cases hk : a = k
    · subst hk; simpa using h
    · simp only [hk, if_false, List.map_cons, List.nodup_cons]
      refine ⟨?_, ih h.2⟩
      rw [keys_put]
      rintro (rfl | h')
      · exact hk rfl
      · exact h.1 h'

theorem sum_put (f : V → Nat) (k : κ) (v : V) (m : List (κ × V)) :
    ((put k v m).map fun p => f p.2).sum + ((get k m).map f).getD 0 = (m.map fun p => f p.2).sum + f v := by
  induction m with
  | nil => simp [put, get]
  | cons p m ih =>
    obtain ⟨a, w⟩ := p
    simp only [put, get]
    by_cases h : a = k
    · simp only [h, if_true, List.map_cons, List.sum_cons, Option.map_some, Option.getD_some]; omega
    · simp only [h, if_false, List.map_cons, List.sum_cons]; omega
end

/-- A metric lacks its name, its instrument or its unit. -/
def Incomplete (g : Grp) : Prop := g.type = .metric ∧ (g.metricName = none ∨ g.instrument = none ∨ g.unit = none)

theorem step1_none (s : Stats1) (g : Grp) : step1 s g = none ↔ Incomplete g := by
  unfold step1 Incomplete
  cases g.type <;> simp
  · cases g.spanKind <;> simp
  · cases g.metricName <;> cases g.instrument <;> cases g.unit <;> simp

theorem stats1Of_nil (t : GroupType) : Stats1Of t [] {} :=
  ⟨rfl, rfl, rfl, rfl, counts_nil _, counts_nil _, fun _ => ⟨by simp, by simp⟩, fun _ => counts_nil _, fun _ => counts_nil _,
    fun _ => counts_nil _⟩

theorem counts_opt {κ : Type} [DecidableEq κ] (f : Grp → Option κ) {gs : List Grp} {m : List (κ × Nat)}
    (h : Counts id (gs.filterMap f) m) (g : Grp) :
    Counts id ((gs ++ [g]).filterMap f) (match f g with | some x => bump x m | none => m) := by
  rw [List.filterMap_append]
  cases hf : f g with
  | none => simpa [List.filterMap_cons, hf] using h
  | some x => simpa [List.filterMap_cons, hf] using counts_snoc h x

theorem names_opt {κ : Type} [DecidableEq κ] (f : Grp → Option κ) {gs : List Grp} {m : List κ}
    (h : Names id (gs.filterMap f) m) (g : Grp) (x : κ) (hf : f g = some x) :
    Names id ((gs ++ [g]).filterMap f) (add x m) := by
  rw [List.filterMap_append]
  simpa [List.filterMap_cons, hf] using names_add h x

theorem update_spec (t : GroupType) (gs : List Grp) (s : Stats1) (h : Stats1Of t gs s) (g : Grp) :
    let c := update s.common g
    c.count = (gs ++ [g]).length ∧ c.attributes = ((gs ++ [g]).map fun g => g.attributes.length).sum ∧
    c.withNote = ((gs ++ [g]).filter fun g => decide (g.note ≠ "")).length ∧
    c.deprecated = ((gs ++ [g]).filter fun g => g.deprecated.isSome).length ∧
    Counts id ((gs ++ [g]).filterMap (·.stability)) c.stability ∧
    Counts (fun g : Grp => g.attributes.length) (gs ++ [g]) c.cards := by
  refine ⟨?_, ?_, ?_, ?_, ?_, counts_snoc h.cards g⟩
  rotate_left 4
  · have := counts_opt (·.stability) h.stability g
    simp only [update]
    cases hst : g.stability <;> simpa [hst] using this
  · simp [update, h.count]
  · simp [update, h.attributes]
  · simp only [update, h.withNote, List.filter_append, List.length_append, List.filter_cons, List.filter_nil]
    by_cases hc : g.note = "" <;> simp [hc]
  · simp only [update, h.deprecated, List.filter_append, List.length_append, List.filter_cons, List.filter_nil]
    cases g.deprecated <;> simp

theorem step1_spec (t : GroupType) (gs : List Grp) (s s' : Stats1) (g : Grp) (ht : g.type = t) (h : Stats1Of t gs s)
    (hs : step1 s g = some s') : Stats1Of t (gs ++ [g]) s' := by
  obtain ⟨h1, h2, h3, h4, h5, h6⟩ := update_spec t gs s h g
  have hsp : ∀ k, t = .span → g.spanKind = some k → Counts id ((gs ++ [g]).filterMap (·.spanKind)) (bump k s.kinds) := by
    intro k ht hk
    have := counts_opt (·.spanKind) (h.kinds ht) g
    simpa [hk] using this
  have hsn : t = .span → g.spanKind = none → Counts id ((gs ++ [g]).filterMap (·.spanKind)) s.kinds := by
    intro ht hk
    have := counts_opt (·.spanKind) (h.kinds ht) g
    simpa [hk] using this
  unfold step1 at hs
  rw [ht] at hs
  cases t <;> simp only at hs
  case metric =>
    split at hs
    · rename_i n i u hn hi hu
      cases hs
      have hI := counts_opt (·.instrument) (h.instruments rfl) g
      have hU := counts_opt (·.unit) (h.units rfl) g
      simp only [hi] at hI
      simp only [hu] at hU
      exact ⟨h1, h2, h3, h4, h5, h6, fun _ => names_opt _ (h.names rfl) g n hn, fun _ => hI, fun _ => hU, nofun⟩
    · cases hs
  case span =>
    split at hs
    · rename_i k hk
      cases hs
      exact ⟨h1, h2, h3, h4, h5, h6, nofun, nofun, nofun, fun _ => hsp k rfl hk⟩
    · rename_i hk
      cases hs
      exact ⟨h1, h2, h3, h4, h5, h6, nofun, nofun, nofun, fun _ => hsn rfl hk⟩
  all_goals
    cases hs
    exact ⟨h1, h2, h3, h4, h5, h6, nofun, nofun, nofun, nofun⟩

/-- What holds of the breakdown of `pre`. -/
structure BreakdownOf (pre : List Grp) (m : List (GroupType × Stats1)) : Prop where
  once : (m.map Prod.fst).Nodup
  none : ∀ t, get t m = none ↔ ∀ g ∈ pre, g.type ≠ t
  some : ∀ t s, get t m = some s → Stats1Of t (pre.filter fun g => decide (g.type = t)) s
  total : (m.map fun p => p.2.common.count).sum = pre.length

theorem breakdown_spec (gs pre : List Grp) (m m' : List (GroupType × Stats1)) (h : BreakdownOf pre m)
    (hb : breakdown gs m = some m') : BreakdownOf (pre ++ gs) m' := by
  induction gs generalizing pre m with
  | nil => simp only [breakdown, Option.some.injEq] at hb; subst hb; simpa using h
  | cons g gs ih =>
    simp only [breakdown] at hb
    split at hb
    · cases hb
    · rename_i s hs
      have hprev : Stats1Of g.type (pre.filter fun x => decide (x.type = g.type)) ((get g.type m).getD {}) := by
        cases hg : get g.type m with
        | some s => exact h.some _ _ hg
        | none =>
          have : (pre.filter fun x => decide (x.type = g.type)) = [] := by
            rw [List.filter_eq_nil_iff]; simpa using (h.none _).1 hg
          rw [this]; exact stats1Of_nil _
      have hstep := step1_spec g.type _ _ _ g rfl hprev hs
      have := ih (pre ++ [g]) (put g.type s m) ⟨nodup_put _ _ _ h.once, fun t => ?_, fun t s' hs' => ?_, ?_⟩ hb
      · simpa using this
      · rw [get_put]
        split
        · rename_i ht
          simp only [reduceCtorEq, false_iff]
          intro hn; exact hn g (by simp) ht
        · rename_i ht
          rw [h.none]
          constructor
          · intro hn x hx
            rcases List.mem_append.1 hx with hx | hx
            · exact hn x hx
            · rw [List.mem_singleton.1 hx]; exact ht
          · intro hn x hx; exact hn x (List.mem_append_left _ hx)
      · rw [get_put] at hs'
        split at hs'
        · rename_i ht
          cases hs'
          subst ht
          simpa [List.filter_append] using hstep
        · rename_i ht
          have := h.some _ _ hs'
          simpa [List.filter_append, ht] using this
      · have hsum := sum_put (fun s : Stats1 => s.common.count) g.type s m
        rw [h.total] at hsum
        have h1 := hstep.count
        have h2 : ((get g.type m).map fun s => s.common.count).getD 0 = (pre.filter fun x => decide (x.type = g.type)).length := by
          rw [← hprev.count]
          cases get g.type m <;> rfl
        rw [h2] at hsum
        simp only [List.length_append, List.length_singleton] at h1 ⊢
        omega

theorem breakdown_none (gs : List Grp) (m : List (GroupType × Stats1)) :
    breakdown gs m = none ↔ ∃ g ∈ gs, Incomplete g := by
  induction gs generalizing m with
  | nil => simp [breakdown]
  | cons g gs ih =>
    simp only [breakdown]
    split
    · rename_i hs
      have := (step1_none _ _).1 hs
      exact ⟨fun _ => ⟨g, by simp, this⟩, fun _ => rfl⟩
    · rename_i s hs
      rw [ih]
      constructor
      · rintro ⟨x, hx, h⟩; exact ⟨x, by simp [hx], h⟩
      · rintro ⟨x, hx, h⟩
        rcases List.mem_cons.1 hx with rfl | hx
        · rw [(step1_none _ _).2 h] at hs; cases hs
        · exact ⟨x, hx, h⟩

/-- C215: the statistics of a registry of the first format: one entry for each type of group that occurs, whose numbers are
those of the groups of that type; the counts add up to the number of groups. -/
theorem stats1_spec (gs : List Grp) (n : Nat) (m : List (GroupType × Stats1)) (h : stats1 gs = some (n, m)) :
    n = gs.length ∧ BreakdownOf gs m := by
  unfold stats1 at h
  cases hb : breakdown gs [] with
  | none => rw [hb] at h; cases h
  | some m' =>
    rw [hb] at h
    simp only [Option.map_some, Option.some.injEq, Prod.mk.injEq] at h
    obtain ⟨rfl, rfl⟩ := h
    refine ⟨rfl, ?_⟩
    have := breakdown_spec gs [] [] m' ⟨by simp, by simp [get], by simp [get], rfl⟩ hb
    simpa using this

/-- C215: computing the statistics panics exactly if a metric lacks its name, its instrument or its unit. -/
theorem stats1_panics (gs : List Grp) : stats1 gs = none ↔ ∃ g ∈ gs, Incomplete g := by
  unfold stats1
  rw [Option.map_eq_none_iff, breakdown_none]

/-- C215: a registry that can be converted to the second format has statistics in the first. -/
theorem convertible_stats (i : In) (o : Out) (h : convert i = .ok o) : ∃ r, stats1 i.groups = some r := by
  cases hs : stats1 i.groups with
  | some r => exact ⟨r, rfl⟩
  | none =>
    obtain ⟨g, hg, ht, hm⟩ := (stats1_panics _).1 hs
    obtain ⟨_, _, _, h4⟩ := (convert_ok_iff i).1 ⟨o, h⟩ g hg
    obtain ⟨⟨_, h1⟩, ⟨_, h2⟩, ⟨_, h3⟩, _⟩ := h4 ht
    rcases hm with hm | hm | hm
    · rw [h1] at hm; cases hm
    · rw [h2] at hm; cases hm
    · rw [h3] at hm; cases hm

/-- C215: the statistics of the catalog. -/
theorem catalog_stats (typeText levelText : String → String) (cat : List A1) :
    let s := catalogStats typeText levelText cat
    s.count = cat.length ∧ Counts (fun a : A1 => typeText a.type) cat s.types ∧
    Counts (fun a : A1 => levelText a.requirement) cat s.levels ∧
    Counts id (cat.filterMap (·.stability)) s.stability ∧
    s.deprecated = (cat.filter fun a => a.deprecated.isSome).length :=
  ⟨rfl, counts_of _ _, counts_of _ _, counts_of _ _, rfl⟩

/-- C215: the stabilities of the groups do not add up to their number: groups without one are not counted. -/
theorem stability_total_less : ∃ gs n m s, stats1 gs = some (n, m) ∧ get .span m = some s ∧
    (s.common.stability.map Prod.snd).sum ≠ s.common.count := by
  exact ⟨[{ id := "a", type := .span }], _, _, _, rfl, rfl, by decide⟩

example : ∃ r, stats1 sample.groups = some r := by
  obtain ⟨o, ho⟩ := (convert_ok_iff sample).2 sample_convertible
  exact convertible_stats sample o ho

example : ∃ n m s, stats1 sample.groups = some (n, m) ∧ n = 5 ∧ get .metric m = some s ∧ s.names = ["m"] ∧
    s.instruments = [("gauge", 2)] ∧ s.common.cards = [(1, 1), (0, 1)] :=
  ⟨_, _, _, rfl, rfl, rfl, rfl, rfl, rfl⟩

end Verif.Stats
