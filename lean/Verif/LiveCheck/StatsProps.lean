import Verif.LiveCheck.RunProps
/-
The statistics and the exit code of a live check (C21, C22), and the registry coverage.
-/
namespace Verif.LiveCheck
open Verif.Util Verif.Semconv

/-! ### Counters -/

/-- How often `k` was counted. -/
def cnt (k : String) (m : List (String × Nat)) : Nat := (aget k m).getD 0

/-- The sum of all counts. -/
def total (m : List (String × Nat)) : Nat := (m.map (·.2)).sum

theorem cnt_bump (k k' : String) (m : List (String × Nat)) :
    cnt k' (bump k m) = cnt k' m + if k = k' then 1 else 0 := by
  unfold cnt bump
  rw [aget_aset]
  by_cases h : k' = k
  · subst h; simp
  · rw [if_neg h, if_neg (fun e => h e.symm)]; simp

theorem total_bump (k : String) (m : List (String × Nat)) : total (bump k m) = total m + 1 := by
  unfold bump
  induction m with
  | nil => simp [total, aset, aget]
  | cons p m ih =>
    obtain ⟨a, v⟩ := p
    by_cases h : a = k
    · simp [total, aset, aget, h]; omega
    · have := ih
      simp only [aset, aget, if_neg h]
      simp only [total, List.map_cons, List.sum_cons] at this ⊢
      omega

theorem LevelCounts.get_bump (c : LevelCounts) (l l' : Level) :
    (c.bump l).get l' = c.get l' + if l = l' then 1 else 0 := by
  cases l <;> cases l' <;> simp [LevelCounts.bump, LevelCounts.get]

/-! ### The counts that are not about coverage -/

/-- The statistics without the names seen. -/
def core (t : Stats) : Stats :=
  { t with regAttrs := [], otherAttrs := [], regMetrics := [], otherMetrics := [], regEvents := [], otherEvents := [],
           coverage := (0, 1) }

theorem core_coverAttr (t : Stats) (n : String) : core (t.coverAttr n) = core t := by
  unfold Stats.coverAttr; split <;> rfl
theorem core_coverMetric (t : Stats) (n : String) : core (t.coverMetric n) = core t := by
  unfold Stats.coverMetric; split <;> rfl
theorem core_coverEvent (t : Stats) (n : String) : core (t.coverEvent n) = core t := by
  unfold Stats.coverEvent; split
  · rfl
  · split <;> rfl
theorem core_finalize (t : Stats) : core t.finalize = core t := by
  unfold Stats.finalize; dsimp only; split <;> rfl

theorem core_cover (e : Entry) (t : Stats) : core (cover e t) = core t := by
  unfold cover
  split
  · exact core_coverAttr _ _
  · exact core_coverMetric _ _
  · exact core_coverEvent _ _
  · rfl

/-- The counts, given the entries `es` and their findings `fs`. -/
structure Counts (t : Stats) (es : List Entry) (fs : List Finding) : Prop where
  entities : t.totalEntities = es.length
  byType : ∀ k, cnt k t.byType = es.countP fun e => e.kind = k
  byTypeTotal : total t.byType = es.length
  advisories : t.totalAdvisories = fs.length
  byLevel : ∀ l, t.levelCounts.get l = fs.countP fun f => f.level = l
  byId : ∀ i, cnt i t.typeCounts = fs.countP fun f => f.id = i
  byIdTotal : total t.typeCounts = fs.length
  byMessage : ∀ i, cnt i t.messageCounts = fs.countP fun f => f.message = i
  byMessageTotal : total t.messageCounts = fs.length
  highest : ∀ l, t.highestCounts.get l = es.countP fun e => HighestIs l e
  noAdvice : t.noAdvice = es.countP fun e => e.result.all = []

theorem Counts.congr {t t' : Stats} {es : List Entry} {fs : List Finding} (h : core t = core t') (c : Counts t es fs) :
    Counts t' es fs := by
  have h1 : t.totalEntities = t'.totalEntities := by have := congrArg (fun x : Stats => x.totalEntities) h; exact this
  have h2 : t.byType = t'.byType := by have := congrArg (fun x : Stats => x.byType) h; exact this
  have h3 : t.totalAdvisories = t'.totalAdvisories := by have := congrArg (fun x : Stats => x.totalAdvisories) h; exact this
  have h4 : t.levelCounts = t'.levelCounts := by have := congrArg (fun x : Stats => x.levelCounts) h; exact this
  have h5 : t.typeCounts = t'.typeCounts := by have := congrArg (fun x : Stats => x.typeCounts) h; exact this
  have h6 : t.messageCounts = t'.messageCounts := by have := congrArg (fun x : Stats => x.messageCounts) h; exact this
  have h7 : t.highestCounts = t'.highestCounts := by have := congrArg (fun x : Stats => x.highestCounts) h; exact this
  have h8 : t.noAdvice = t'.noAdvice := by have := congrArg (fun x : Stats => x.noAdvice) h; exact this
  exact ⟨h1 ▸ c.entities, h2 ▸ c.byType, h2 ▸ c.byTypeTotal, h3 ▸ c.advisories, h4 ▸ c.byLevel, h5 ▸ c.byId,
    h5 ▸ c.byIdTotal, h6 ▸ c.byMessage, h6 ▸ c.byMessageTotal, h7 ▸ c.highest, h8 ▸ c.noAdvice⟩

/-- What adding findings does. -/
theorem foldl_addAdvice (fs : List Finding) (t : Stats) :
    let t' := fs.foldl Stats.addAdvice t
    t'.totalEntities = t.totalEntities ∧ t'.byType = t.byType ∧ t'.highestCounts = t.highestCounts ∧
    t'.noAdvice = t.noAdvice ∧
    t'.totalAdvisories = t.totalAdvisories + fs.length ∧
    (∀ l, t'.levelCounts.get l = t.levelCounts.get l + fs.countP fun f => f.level = l) ∧
    (∀ i, cnt i t'.typeCounts = cnt i t.typeCounts + fs.countP fun f => f.id = i) ∧
    total t'.typeCounts = total t.typeCounts + fs.length ∧
    (∀ i, cnt i t'.messageCounts = cnt i t.messageCounts + fs.countP fun f => f.message = i) ∧
    total t'.messageCounts = total t.messageCounts + fs.length := by
  induction fs generalizing t with
  | nil => simp
  | cons f fs ih =>
    obtain ⟨h1, h2, h3, h4, h5, h6, h7, h8, h9, h10⟩ := ih (t.addAdvice f)
    simp only [List.foldl_cons]
    refine ⟨h1, h2, h3, h4, ?_, ?_, ?_, ?_, ?_, ?_⟩
    · rw [h5]; simp [Stats.addAdvice]; omega
    · intro l; rw [h6]; simp [Stats.addAdvice, LevelCounts.get_bump, List.countP_cons]; omega
    · intro l; rw [h7]; simp [Stats.addAdvice, cnt_bump, List.countP_cons]; omega
    · rw [h8]; simp [Stats.addAdvice, total_bump]; omega
    · intro l; rw [h9]; simp [Stats.addAdvice, cnt_bump, List.countP_cons]; omega
    · rw [h10]; simp [Stats.addAdvice, total_bump]; omega

/-- The highest level of a well formed result, and no other, is its highest level. -/
theorem highestIs_iff {e : Entry} (h : ResOk e.result) (l : Level) : HighestIs l e ↔ e.result.highest = some l := by
  constructor
  · intro ⟨⟨f, hf, hl⟩, hall⟩
    cases hr : e.result.highest with
    | none => rw [h.1.1 hr] at hf; exact absurd hf (by simp)
    | some l' =>
      obtain ⟨⟨g, hg, hgl⟩, hall'⟩ := h.2 l' hr
      have a := hall g hg
      have b := hall' f hf
      rw [hgl] at a; rw [hl] at b
      rw [level_le_antisymm a b]
  · intro hr; exact h.2 l hr

theorem step_counts {t : Stats} {es : List Entry} {fs : List Finding} {e : Entry} (he : ResOk e.result)
    (c : Counts t es fs) : Counts (step t e) (es ++ [e]) (fs ++ e.result.all) := by
  unfold step
  refine Counts.congr (core_cover _ _).symm ?_
  obtain ⟨h1, h2, h3, h4, h5, h6, h7, h8, h9, h10⟩ := foldl_addAdvice e.result.all (t.incEntity e.kind)
  unfold Stats.addResult
  dsimp only
  generalize List.foldl Stats.addAdvice (t.incEntity e.kind) e.result.all = u at *
  have hhi : ∀ l, (u.addHighest e.result.highest).highestCounts.get l
      = t.highestCounts.get l + if HighestIs l e then 1 else 0 := by
    intro l
    have hi := highestIs_iff he l
    cases hr : e.result.highest with
    | none =>
      rw [hr] at hi
      have : ¬ HighestIs l e := fun h => nomatch hi.1 h
      rw [if_neg this]
      exact congrArg (fun x => x.get l) h3
    | some l' =>
      rw [hr] at hi
      simp only [Stats.addHighest]
      rw [LevelCounts.get_bump]
      have : (LevelCounts.get u.highestCounts l) = t.highestCounts.get l := congrArg (fun x => x.get l) h3
      rw [this]
      by_cases hl : l' = l
      · subst hl; rw [if_pos rfl, if_pos (hi.2 rfl)]
      · rw [if_neg hl, if_neg (fun h => hl (Option.some.inj (hi.1 h)))]
  generalize hv : u.addHighest e.result.highest = v at hhi ⊢
  have hv' : v.totalEntities = u.totalEntities ∧ v.byType = u.byType ∧ v.totalAdvisories = u.totalAdvisories ∧
      v.levelCounts = u.levelCounts ∧ v.typeCounts = u.typeCounts ∧ v.messageCounts = u.messageCounts ∧
      v.noAdvice = u.noAdvice := by
    rw [← hv]; cases e.result.highest <;> simp [Stats.addHighest]
  obtain ⟨v1, v2, v3, v4, v5, v6, v7⟩ := hv'
  have hw : ∃ w, (if e.result.all.isEmpty = true then v.incNoAdvice else v) = w ∧
      w.totalEntities = u.totalEntities ∧ w.byType = u.byType ∧ w.totalAdvisories = u.totalAdvisories ∧
      w.levelCounts = u.levelCounts ∧ w.typeCounts = u.typeCounts ∧ w.messageCounts = u.messageCounts ∧
      w.noAdvice = t.noAdvice + (if e.result.all = [] then 1 else 0) ∧ w.highestCounts = v.highestCounts := by
    have h4' : u.noAdvice = t.noAdvice := h4
    cases hall : e.result.all with
    | nil => exact ⟨_, rfl, v1, v2, v3, v4, v5, v6, by simp [Stats.incNoAdvice, v7, h4'], rfl⟩
    | cons f l => exact ⟨_, rfl, v1, v2, v3, v4, v5, v6, by simp [v7, h4'], rfl⟩
  obtain ⟨w, hw, w1, w2, w3, w4, w5, w6, w7, w8⟩ := hw
  rw [hw]
  refine ⟨?_, ?_, ?_, ?_, ?_, ?_, ?_, ?_, ?_, ?_, ?_⟩
  · rw [w1, h1]; simp [Stats.incEntity, c.entities]
  · intro k; rw [w2, h2]; simp [Stats.incEntity, cnt_bump, c.byType, List.countP_append, List.countP_cons]
  · rw [w2, h2]; simp [Stats.incEntity, total_bump, c.byTypeTotal]
  · rw [w3, h5]; simp [Stats.incEntity, c.advisories]
  · intro l; rw [w4, h6]; simp [Stats.incEntity, c.byLevel, List.countP_append]
  · intro i; rw [w5, h7]; simp [Stats.incEntity, c.byId, List.countP_append]
  · rw [w5, h8]; simp [Stats.incEntity, c.byIdTotal]
  · intro i; rw [w6, h9]; simp [Stats.incEntity, c.byMessage, List.countP_append]
  · rw [w6, h10]; simp [Stats.incEntity, c.byMessageTotal]
  · intro l; rw [w8, hhi, c.highest]; simp [List.countP_append, List.countP_cons]
  · rw [w7, c.noAdvice]; simp [List.countP_append, List.countP_cons]

theorem foldl_counts {es : List Entry} {t : Stats} {es0 : List Entry} {fs0 : List Finding} (h : ∀ e ∈ es, ResOk e.result)
    (c : Counts t es0 fs0) : Counts (es.foldl step t) (es0 ++ es) (fs0 ++ es.flatMap fun e => e.result.all) := by
  induction es generalizing t es0 fs0 with
  | nil => simpa using c
  | cons e es ih =>
    have := ih (fun x hx => h x (List.mem_cons_of_mem _ hx)) (step_counts (h e List.mem_cons_self) c)
    simpa using this

theorem new_counts (r : Registry) : Counts (Stats.new r) [] [] := by
  cases r <;> exact ⟨rfl, fun _ => rfl, rfl, rfl, fun l => by cases l <;> rfl, fun _ => rfl, rfl, fun _ => rfl, rfl,
    fun l => by cases l <;> rfl, rfl⟩

theorem entries_ok {env : Env} {noStats : Bool} {samples : List Sample} {st : St}
    (h : liveCheck env noStats samples = .ok st) : ∀ e ∈ st.entries, ResOk e.result := by
  obtain ⟨vs, h1, h2, -, -⟩ := liveCheck_ext h
  intro e he
  rw [h2, List.mem_map] at he
  obtain ⟨v, hv, rfl⟩ := he
  obtain ⟨o, -, hr⟩ := h1.mem_right hv
  exact hr.2.2.2.2

/-- C21. The statistics of a run are those computed from its report: the numbers of entries altogether and of each kind, the
numbers of findings altogether, of each level, of each id and with each message, for each level the number of entries
whose highest level it is, and the number of entries without findings. -/
theorem stats_exact {env : Env} {samples : List Sample} {st : St} (h : liveCheck env false samples = .ok st) :
    ∃ s, st.stats = some s ∧ Counts s st.entries st.findings := by
  have hok := entries_ok h
  obtain ⟨vs, h1, h2, -, h4⟩ := liveCheck_ext h
  refine ⟨_, h4, ?_⟩
  refine Counts.congr (core_finalize _).symm ?_
  have := foldl_counts (es := vs.map (·.1)) (by rw [← h2]; exact hok) (new_counts env.checker.registry)
  unfold St.findings
  rw [h2]
  simpa using this

theorem sum_by_level (l : List Finding) :
    (l.countP fun f => f.level = .information) + (l.countP fun f => f.level = .improvement)
      + (l.countP fun f => f.level = .violation) = l.length := by
  induction l with
  | nil => rfl
  | cons f l ih =>
    simp only [List.countP_cons, List.length_cons]
    cases hf : f.level <;> simp <;> omega

theorem sum_highest {l : List Entry} (h : ∀ e ∈ l, ResOk e.result) :
    (l.countP fun e => HighestIs .information e) + (l.countP fun e => HighestIs .improvement e)
      + (l.countP fun e => HighestIs .violation e) + (l.countP fun e => e.result.all = []) = l.length := by
  induction l with
  | nil => rfl
  | cons e l ih =>
    have ih := ih fun x hx => h x (List.mem_cons_of_mem _ hx)
    have he := h e List.mem_cons_self
    have h1 := highestIs_iff he .information
    have h2 := highestIs_iff he .improvement
    have h3 := highestIs_iff he .violation
    have h4 := he.1
    simp only [List.countP_cons, List.length_cons, h1, h2, h3, ← h4] at ih ⊢
    cases hh : e.result.highest with
    | none => simp; omega
    | some l => cases l <;> simp <;> omega

/-- C21. The counts of a run add up: by level, by id and by message they sum to the number of findings; by highest level they
sum to the number of entries with findings, which together with those without are all; by kind they sum to all. -/
theorem stats_conserved {env : Env} {samples : List Sample} {st : St} {s : Stats}
    (h : liveCheck env false samples = .ok st) (hs : st.stats = some s) :
    s.levelCounts.information + s.levelCounts.improvement + s.levelCounts.violation = s.totalAdvisories ∧
    total s.typeCounts = s.totalAdvisories ∧ total s.messageCounts = s.totalAdvisories ∧
    s.highestCounts.information + s.highestCounts.improvement + s.highestCounts.violation
      = (st.entries.countP fun e => e.result.all ≠ []) ∧
    s.highestCounts.information + s.highestCounts.improvement + s.highestCounts.violation + s.noAdvice
      = s.totalEntities ∧
    total s.byType = s.totalEntities := by
  obtain ⟨s', hs', c⟩ := stats_exact h
  rw [hs] at hs'
  cases hs'
  have l1 := c.byLevel .information
  have l2 := c.byLevel .improvement
  have l3 := c.byLevel .violation
  have g1 := c.highest .information
  have g2 := c.highest .improvement
  have g3 := c.highest .violation
  have sl := sum_by_level st.findings
  have sh := sum_highest (entries_ok h)
  have hn := c.noAdvice
  have hc := List.length_eq_countP_add_countP (fun e : Entry => decide (e.result.all = [])) (l := st.entries)
  simp only [LevelCounts.get] at l1 l2 l3 g1 g2 g3
  refine ⟨?_, ?_, ?_, ?_, ?_, ?_⟩
  · rw [c.advisories]; omega
  · rw [c.byIdTotal, c.advisories]
  · rw [c.byMessageTotal, c.advisories]
  · have : (st.entries.countP fun e => e.result.all ≠ [])
        = st.entries.countP (fun a => decide ¬decide (a.result.all = []) = true) := by
      congr 1; funext e; simp
    rw [this]; omega
  · rw [c.entities]; omega
  · rw [c.byTypeTotal, c.entities]

/-- A finding of level `l` is severe enough for a `--fail-on` setting. -/
def Severe (f : FailOn) (l : Level) : Prop :=
  match f with
  | .violation => l = .violation
  | .improvement => l = .violation ∨ l = .improvement
  | .information => True
  | .none => False

theorem severe_iff (f : FailOn) (l : Level) : Severe f l ↔ ∃ t, f.threshold = some t ∧ t ≤ l := by
  cases f <;> cases l <;> simp [Severe, FailOn.threshold] <;> decide

/-- C22. With statistics, a run ends with exit code 1 exactly if there is a finding in the report that is severe enough for
the setting, and otherwise with 0. -/
theorem exit_iff {env : Env} {samples : List Sample} {st : St} (h : liveCheck env false samples = .ok st) (f : FailOn) :
    (exitCode f st = 1 ↔ ∃ x ∈ st.findings, Severe f x.level) ∧ (exitCode f st = 0 ∨ exitCode f st = 1) := by
  have hsev : (∃ x ∈ st.findings, Severe f x.level) ↔ ∃ t, f.threshold = some t ∧ ∃ x ∈ st.findings, t ≤ x.level := by
    constructor
    · intro ⟨x, hx, h⟩
      obtain ⟨t, h1, h2⟩ := (severe_iff f _).1 h
      exact ⟨t, h1, x, hx, h2⟩
    · intro ⟨t, h1, x, hx, h2⟩; exact ⟨x, hx, (severe_iff f _).2 ⟨t, h1, h2⟩⟩
  rw [hsev]
  obtain ⟨s, hs, c⟩ := stats_exact h
  have hok := entries_ok h
  unfold exitCode
  rw [hs]
  cases hf : f.threshold with
  | none => simp
  | some t =>
    dsimp only
    have key : s.shouldFail t = true ↔ ∃ x ∈ st.findings, t ≤ x.level := by
      have hpos : ∀ l, 0 < s.highestCounts.get l ↔ ∃ e ∈ st.entries, HighestIs l e := by
        intro l; rw [c.highest]; simp [List.countP_pos_iff]
      have hp1 := hpos .information
      have hp2 := hpos .improvement
      have hp3 := hpos .violation
      simp only [LevelCounts.get] at hp1 hp2 hp3
      have hfind : (∃ x ∈ st.findings, t ≤ x.level) ↔ ∃ l, t ≤ l ∧ ∃ e ∈ st.entries, HighestIs l e := by
        constructor
        · intro ⟨x, hx, hl⟩
          unfold St.findings at hx
          rw [List.mem_flatMap] at hx
          obtain ⟨e, he, hxe⟩ := hx
          cases hh : e.result.highest with
          | none => rw [(hok e he).1.1 hh] at hxe; exact absurd hxe (by simp)
          | some l =>
            refine ⟨l, level_le_trans hl (((hok e he).2 l hh).2 x hxe), e, he, (highestIs_iff (hok e he) l).2 hh⟩
        · intro ⟨l, hl, e, he, hi⟩
          obtain ⟨⟨x, hx, hxl⟩, -⟩ := hi
          exact ⟨x, List.mem_flatMap.2 ⟨e, he, hx⟩, by rw [hxl]; exact hl⟩
      rw [hfind]
      unfold Stats.shouldFail Stats.maxLevel
      by_cases a3 : 0 < s.highestCounts.violation
      · rw [if_pos a3]
        have ht : t ≤ .violation := by cases t <;> decide
        simp only [decide_eq_true_eq, ht, true_iff]
        exact ⟨_, ht, hp3.1 a3⟩
      · rw [if_neg a3]
        by_cases a2 : 0 < s.highestCounts.improvement
        · rw [if_pos a2]
          simp only [decide_eq_true_eq]
          constructor
          · intro ht; exact ⟨_, ht, hp2.1 a2⟩
          · intro ⟨l, hl, he⟩
            cases l with
            | violation => exact absurd (hp3.2 he) a3
            | improvement => exact hl
            | information => exact level_le_trans hl (by decide)
        · rw [if_neg a2]
          by_cases a1 : 0 < s.highestCounts.information
          · rw [if_pos a1]
            simp only [decide_eq_true_eq]
            constructor
            · intro ht; exact ⟨_, ht, hp1.1 a1⟩
            · intro ⟨l, hl, he⟩
              cases l with
              | violation => exact absurd (hp3.2 he) a3
              | improvement => exact absurd (hp2.2 he) a2
              | information => exact hl
          · rw [if_neg a1]
            simp only [Bool.false_eq_true, false_iff]
            intro ⟨l, hl, he⟩
            cases l with
            | violation => exact absurd (hp3.2 he) a3
            | improvement => exact absurd (hp2.2 he) a2
            | information => exact absurd (hp1.2 he) a1
    by_cases hk : s.shouldFail t = true
    · rw [if_pos hk]
      exact ⟨⟨fun _ => ⟨t, rfl, key.1 hk⟩, fun _ => rfl⟩, .inr rfl⟩
    · rw [if_neg hk]
      refine ⟨⟨fun h => absurd h (by decide), ?_⟩, .inl rfl⟩
      intro ⟨t', ht, hx⟩
      cases ht
      exact absurd (key.2 hx) hk

/-- C22. Without statistics a run never fails, and neither does one without threshold. -/
theorem exit_never {env : Env} {noStats : Bool} {samples : List Sample} {st : St}
    (h : liveCheck env noStats samples = .ok st) :
    (noStats = true → ∀ f, exitCode f st = 0) ∧ exitCode .none st = 0 := by
  refine ⟨?_, rfl⟩
  intro hn f
  subst hn
  obtain ⟨vs, -, -, -, h4⟩ := liveCheck_ext h
  unfold exitCode
  rw [h4]
  cases f.threshold <;> rfl

/-! ### Coverage -/

/-- All attribute definitions of a registry. -/
def Registry.attrDefs : Registry → List AttrDef
  | .v1 groups => groups.flatMap fun g => g.signal.attrs
  | .v2 p _ => p.attributes

/-- All metrics of a registry. -/
def Registry.metricDefs : Registry → List (String × Signal)
  | .v1 groups => groups.filterMap fun g =>
      if g.type = .metric then g.metricName.map fun n => (n, g.signal) else none
  | .v2 p _ => p.metrics

/-- All events of a registry. -/
def Registry.eventDefs : Registry → List (String × Signal)
  | .v1 groups => groups.filterMap fun g => if g.type = .event then g.name.map fun n => (n, g.signal) else none
  | .v2 p _ => p.events

/-- The entry is about an attribute that counts as `n`. -/
def IsAttr (n : String) (e : Entry) : Bool :=
  match e.ref with
  | .attribute a => decide (coveredName a e.result = n)
  | _ => false

/-- The entry is about the metric `n`. -/
def IsMetric (n : String) (e : Entry) : Bool :=
  match e.ref with
  | .metric m => decide (m.name = n)
  | _ => false

/-- The entry is about the event `n`. -/
def IsEvent (n : String) (e : Entry) : Bool :=
  match e.ref with
  | .log l => decide (l.eventName = n)
  | _ => false

theorem aget_zeros (names : List String) (m : List (String × Nat)) (n : String) :
    aget n (names.foldl (fun m n => aset n 0 m) m) = if n ∈ names then some 0 else aget n m := by
  induction names generalizing m with
  | nil => simp
  | cons x l ih =>
    rw [List.foldl_cons, ih, aget_aset]
    by_cases h : n ∈ l
    · simp [h]
    · by_cases hx : n = x <;> simp [h, hx]

theorem nodup_zeros (names : List String) (m : List (String × Nat)) (h : (m.map Prod.fst).Nodup) :
    ((names.foldl (fun m n => aset n 0 m) m).map Prod.fst).Nodup := by
  induction names generalizing m with
  | nil => exact h
  | cons x l ih => exact ih _ (nodup_aset h)

/-- A table of registry names and one of other names count the occurrences of all names; `names` are the registry's. -/
structure Cover (names : String → Prop) (reg other : List (String × Nat)) (count : String → Nat) : Prop where
  keys : ∀ n, n ∈ reg.map Prod.fst ↔ names n
  nodup : (reg.map Prod.fst).Nodup
  inReg : ∀ n, names n → cnt n reg = count n ∧ aget n other = none
  inOther : ∀ n, ¬ names n → cnt n other = count n

theorem Cover.zero {names : String → Prop} {l : List String} (h : ∀ n, n ∈ l ↔ names n) :
    Cover names (zeros l) [] fun _ => 0 := by
  have hk : ∀ n, n ∈ (zeros l).map Prod.fst ↔ names n := by
    intro n
    rw [mem_keys_iff]
    unfold zeros
    rw [aget_zeros]
    by_cases hn : n ∈ l
    · simp [hn, ← h]
    · simp [hn, ← h, aget]
  refine ⟨hk, nodup_zeros _ _ (by simp), ?_, fun _ _ => rfl⟩
  intro n hn
  refine ⟨?_, rfl⟩
  unfold cnt zeros
  rw [aget_zeros, if_pos ((h n).2 hn)]
  rfl

theorem keys_bump {k : String} {m : List (String × Nat)} (n : String) :
    n ∈ (bump k m).map Prod.fst ↔ n = k ∨ n ∈ m.map Prod.fst := by
  unfold bump; exact keys_aset_mem

theorem Cover.hit {names : String → Prop} {reg other : List (String × Nat)} {count : String → Nat}
    (c : Cover names reg other count) (k : String) :
    Cover names (if (aget k reg).isSome then bump k reg else reg) (if (aget k reg).isSome then other else bump k other)
      fun n => count n + if k = n then 1 else 0 := by
  have hk : (aget k reg).isSome ↔ names k := by
    rw [← c.keys, mem_keys_iff, Option.isSome_iff_exists]
  by_cases h : (aget k reg).isSome
  · rw [if_pos h, if_pos h]
    have hn := hk.1 h
    refine ⟨?_, nodup_aset c.nodup, ?_, ?_⟩
    · intro n; rw [keys_bump, c.keys]
      exact ⟨fun h => h.elim (fun e => by rw [e]; exact hn) id, .inr⟩
    · intro n hnn
      refine ⟨?_, (c.inReg n hnn).2⟩
      rw [cnt_bump, (c.inReg n hnn).1]
    · intro n hnn
      rw [c.inOther n hnn, if_neg (fun e : k = n => hnn (e ▸ hn))]; rfl
  · rw [if_neg h, if_neg h]
    have hn : ¬ names k := fun e => h (hk.2 e)
    refine ⟨c.keys, c.nodup, ?_, ?_⟩
    · intro n hnn
      have hne : k ≠ n := fun e => hn (e ▸ hnn)
      refine ⟨?_, ?_⟩
      · rw [(c.inReg n hnn).1, if_neg hne]; rfl
      · unfold bump; rw [aget_aset, if_neg (fun e => hne e.symm)]; exact (c.inReg n hnn).2
    · intro n hnn
      rw [cnt_bump, c.inOther n hnn]

/-- The names of attributes that are not deprecated. -/
def LiveAttr (r : Registry) (n : String) : Prop := ∃ d ∈ r.attrDefs, d.name = n ∧ d.deprecated = none
/-- The names of metrics that are not deprecated. -/
def LiveMetric (r : Registry) (n : String) : Prop := ∃ d ∈ r.metricDefs, d.1 = n ∧ d.2.deprecated = none
/-- The names of events that are not deprecated. -/
def LiveEvent (r : Registry) (n : String) : Prop := ∃ d ∈ r.eventDefs, d.1 = n ∧ d.2.deprecated = none

/-- What the statistics say about names, given the entries. -/
structure Seen (r : Registry) (t : Stats) (es : List Entry) : Prop where
  attrs : Cover (LiveAttr r) t.regAttrs t.otherAttrs fun n => es.countP (IsAttr n)
  metrics : Cover (LiveMetric r) t.regMetrics t.otherMetrics fun n => es.countP (IsMetric n)
  events : Cover (LiveEvent r) t.regEvents t.otherEvents fun n => if n = "" then 0 else es.countP (IsEvent n)

theorem mem_liveAttrs {l : List AttrDef} {n : String} :
    n ∈ liveAttrs l ↔ ∃ d ∈ l, d.name = n ∧ d.deprecated = none := by
  unfold liveAttrs
  simp only [List.mem_map, List.mem_filter, Option.isNone_iff_eq_none]
  grind

theorem new_seen (r : Registry) : Seen r (Stats.new r) [] := by
  cases r with
  | v1 groups =>
    refine ⟨Cover.zero ?_, Cover.zero ?_, ?_⟩
    · intro n
      simp only [List.mem_flatMap, LiveAttr, Registry.attrDefs, mem_liveAttrs]
      grind
    · intro n
      simp only [List.mem_filterMap, LiveMetric, Registry.metricDefs, liveMetricName, Option.isNone_iff_eq_none]
      constructor
      · intro ⟨g, hg, h⟩
        by_cases hc : g.type = .metric ∧ g.signal.deprecated = none
        · rw [if_pos hc] at h
          exact ⟨(n, g.signal), ⟨g, hg, by rw [if_pos hc.1, h]; rfl⟩, rfl, hc.2⟩
        · rw [if_neg hc] at h; exact nomatch h
      · intro ⟨d, ⟨g, hg, h⟩, hn, hd⟩
        by_cases hc : g.type = .metric
        · rw [if_pos hc] at h
          cases hm : g.metricName with
          | none => rw [hm] at h; exact nomatch h
          | some x =>
            rw [hm] at h
            have h := Option.some.inj h
            subst h
            exact ⟨g, hg, by rw [if_pos ⟨hc, hd⟩, hm]; exact congrArg some hn⟩
        · rw [if_neg hc] at h; exact nomatch h
    · have hz : Cover (LiveEvent (.v1 groups)) (zeros (groups.filterMap liveEventName)) [] fun _ => 0 := by
        refine Cover.zero ?_
        intro n
        simp only [List.mem_filterMap, LiveEvent, Registry.eventDefs, liveEventName, Option.isNone_iff_eq_none]
        constructor
        · intro ⟨g, hg, h⟩
          by_cases hc : g.type = .event ∧ g.signal.deprecated = none
          · rw [if_pos hc] at h
            exact ⟨(n, g.signal), ⟨g, hg, by rw [if_pos hc.1, h]; rfl⟩, rfl, hc.2⟩
          · rw [if_neg hc] at h; exact nomatch h
        · intro ⟨d, ⟨g, hg, h⟩, hn, hd⟩
          by_cases hc : g.type = .event
          · rw [if_pos hc] at h
            cases hm : g.name with
            | none => rw [hm] at h; exact nomatch h
            | some x =>
              rw [hm] at h
              have h := Option.some.inj h
              subst h
              exact ⟨g, hg, by rw [if_pos ⟨hc, hd⟩, hm]; exact congrArg some hn⟩
          · rw [if_neg hc] at h; exact nomatch h
      have h0 : (fun n => if n = "" then 0 else List.countP (IsEvent n) []) = fun _ => 0 := by funext n; simp
      rw [h0]; exact hz
  | v2 p deps =>
    have hq : ∀ (l : List (String × Signal)) n, n ∈ (l.filter fun q => q.2.deprecated.isNone).map (·.1) ↔
        ∃ d ∈ l, d.1 = n ∧ d.2.deprecated = none := by
      intro l n
      simp only [List.mem_map, List.mem_filter, Option.isNone_iff_eq_none]
      grind
    refine ⟨Cover.zero ?_, Cover.zero (hq _), ?_⟩
    · intro n
      simp only [LiveAttr, Registry.attrDefs, mem_liveAttrs]
    · have hz : Cover (LiveEvent (.v2 p deps)) (zeros ((p.events.filter fun q => q.2.deprecated.isNone).map (·.1))) []
          fun _ => 0 := Cover.zero (hq _)
      have h0 : (fun n => if n = "" then 0 else List.countP (IsEvent n) []) = fun _ => 0 := by funext n; simp
      rw [h0]; exact hz

/-- The names in the statistics. -/
def names (t : Stats) : List (List (String × Nat)) :=
  [t.regAttrs, t.otherAttrs, t.regMetrics, t.otherMetrics, t.regEvents, t.otherEvents]

theorem names_addResult (t : Stats) (r : Result) : names (t.addResult r) = names t := by
  have hf : ∀ (fs : List Finding) (t : Stats), names (fs.foldl Stats.addAdvice t) = names t := by
    intro fs
    induction fs with
    | nil => intro t; rfl
    | cons f fs ih => intro t; exact (ih _).trans rfl
  rw [← hf r.all t]
  unfold Stats.addResult
  dsimp only
  generalize List.foldl Stats.addAdvice t r.all = u
  split <;> cases r.highest <;> rfl

theorem Seen.congr {r : Registry} {t u : Stats} {es : List Entry} (h : names t = names u) (s : Seen r t es) :
    Seen r u es := by
  simp only [names, List.cons.injEq, and_true] at h
  obtain ⟨h1, h2, h3, h4, h5, h6⟩ := h
  exact ⟨h1 ▸ h2 ▸ s.attrs, h3 ▸ h4 ▸ s.metrics, h5 ▸ h6 ▸ s.events⟩

theorem step_seen {r : Registry} {t : Stats} {es : List Entry} (e : Entry) (s : Seen r t es) :
    Seen r (step t e) (es ++ [e]) := by
  have s : Seen r ((t.incEntity e.kind).addResult e.result) es :=
    s.congr ((names_addResult (t.incEntity e.kind) e.result).symm ▸ rfl)
  unfold step
  generalize (t.incEntity e.kind).addResult e.result = u at s
  unfold cover
  have no : ∀ (p : Entry → Bool), p e = false → (es ++ [e]).countP p = es.countP p := by
    intro p hp; simp [List.countP_append, List.countP_cons, hp]
  split
  · rename_i a he
    refine ⟨?_, ?_, ?_⟩
    · have := s.attrs.hit (coveredName a e.result)
      have hc : (fun n => (es ++ [e]).countP (IsAttr n))
          = fun n => es.countP (IsAttr n) + if coveredName a e.result = n then 1 else 0 := by
        funext n; simp [List.countP_append, List.countP_cons, IsAttr, he]
      rw [hc]
      unfold Stats.coverAttr
      by_cases hh : (aget (coveredName a e.result) u.regAttrs).isSome
      · simpa [hh] using this
      · simpa [hh] using this
    · have hc : (fun n => (es ++ [e]).countP (IsMetric n)) = fun n => es.countP (IsMetric n) := by
        funext n; exact no _ (by simp [IsMetric, he])
      rw [hc]
      unfold Stats.coverAttr
      split <;> exact s.metrics
    · have hc : (fun n => if n = "" then 0 else (es ++ [e]).countP (IsEvent n))
          = fun n => if n = "" then 0 else es.countP (IsEvent n) := by
        funext n; rw [no _ (by simp [IsEvent, he])]
      rw [hc]
      unfold Stats.coverAttr
      split <;> exact s.events
  · rename_i m he
    refine ⟨?_, ?_, ?_⟩
    · have hc : (fun n => (es ++ [e]).countP (IsAttr n)) = fun n => es.countP (IsAttr n) := by
        funext n; exact no _ (by simp [IsAttr, he])
      rw [hc]
      unfold Stats.coverMetric
      split <;> exact s.attrs
    · have := s.metrics.hit m.name
      have hc : (fun n => (es ++ [e]).countP (IsMetric n))
          = fun n => es.countP (IsMetric n) + if m.name = n then 1 else 0 := by
        funext n; simp [List.countP_append, List.countP_cons, IsMetric, he]
      rw [hc]
      unfold Stats.coverMetric
      by_cases hh : (aget m.name u.regMetrics).isSome
      · simpa [hh] using this
      · simpa [hh] using this
    · have hc : (fun n => if n = "" then 0 else (es ++ [e]).countP (IsEvent n))
          = fun n => if n = "" then 0 else es.countP (IsEvent n) := by
        funext n; rw [no _ (by simp [IsEvent, he])]
      rw [hc]
      unfold Stats.coverMetric
      split <;> exact s.events
  · rename_i l he
    have ha : (fun n => (es ++ [e]).countP (IsAttr n)) = fun n => es.countP (IsAttr n) := by
      funext n; exact no _ (by simp [IsAttr, he])
    have hm : (fun n => (es ++ [e]).countP (IsMetric n)) = fun n => es.countP (IsMetric n) := by
      funext n; exact no _ (by simp [IsMetric, he])
    by_cases h0 : l.eventName = ""
    · have hc : (fun n => if n = "" then 0 else (es ++ [e]).countP (IsEvent n))
          = fun n => if n = "" then 0 else es.countP (IsEvent n) := by
        funext n
        by_cases hn : n = ""
        · rw [if_pos hn, if_pos hn]
        · rw [if_neg hn, if_neg hn, no _ (by simp [IsEvent, he, h0]; exact hn)]
      refine ⟨?_, ?_, ?_⟩
      · rw [ha]; unfold Stats.coverEvent; rw [if_pos h0]; exact s.attrs
      · rw [hm]; unfold Stats.coverEvent; rw [if_pos h0]; exact s.metrics
      · rw [hc]; unfold Stats.coverEvent; rw [if_pos h0]; exact s.events
    · refine ⟨?_, ?_, ?_⟩
      · rw [ha]; unfold Stats.coverEvent; rw [if_neg h0]; split <;> exact s.attrs
      · rw [hm]; unfold Stats.coverEvent; rw [if_neg h0]; split <;> exact s.metrics
      · have := s.events.hit l.eventName
        have hc : (fun n => if n = "" then 0 else (es ++ [e]).countP (IsEvent n))
            = fun n => (if n = "" then 0 else es.countP (IsEvent n)) + if l.eventName = n then 1 else 0 := by
          funext n
          by_cases hn : n = ""
          · rw [if_pos hn, if_pos hn, if_neg (fun e => h0 (e.trans hn))]
          · rw [if_neg hn, if_neg hn]; simp [List.countP_append, List.countP_cons, IsEvent, he]
        rw [hc]
        unfold Stats.coverEvent
        rw [if_neg h0]
        by_cases hh : (aget l.eventName u.regEvents).isSome
        · simpa [hh] using this
        · simpa [hh] using this
  · rename_i h1 h2 h3
    have ha : (fun n => (es ++ [e]).countP (IsAttr n)) = fun n => es.countP (IsAttr n) := by
      funext n; exact no _ (by unfold IsAttr; split <;> simp_all)
    have hm : (fun n => (es ++ [e]).countP (IsMetric n)) = fun n => es.countP (IsMetric n) := by
      funext n; exact no _ (by unfold IsMetric; split <;> simp_all)
    have hc : (fun n => if n = "" then 0 else (es ++ [e]).countP (IsEvent n))
        = fun n => if n = "" then 0 else es.countP (IsEvent n) := by
      funext n; rw [no _ (by unfold IsEvent; split <;> simp_all)]
    exact ⟨ha ▸ s.attrs, hm ▸ s.metrics, hc ▸ s.events⟩

theorem foldl_seen {r : Registry} {es : List Entry} {t : Stats} {es0 : List Entry} (s : Seen r t es0) :
    Seen r (es.foldl step t) (es0 ++ es) := by
  induction es generalizing t es0 with
  | nil => simpa using s
  | cons e es ih =>
    have := ih (step_seen e s)
    simpa using this

theorem nonZero_eq (m : List (String × Nat)) (h : (m.map Prod.fst).Nodup) :
    nonZero m = ((m.map Prod.fst).filter fun n => decide (0 < cnt n m)).length := by
  unfold nonZero
  rw [← List.length_map (f := Prod.fst), List.filter_map]
  congr 2
  apply List.filter_congr
  intro p hp
  obtain ⟨k, v⟩ := p
  have : cnt k m = v := by
    unfold cnt; rw [aget_of_mem_nodup h hp]; rfl
  simp [this]

/-- C65. The names in the statistics of a run: each attribute, metric or event of the registry that is not deprecated is
listed once, with the number of entries about it; the others in the report are listed apart, with their numbers; a log
without event name is not counted. -/
theorem coverage_counts {env : Env} {samples : List Sample} {st : St} (h : liveCheck env false samples = .ok st) :
    ∃ s, st.stats = some s ∧ Seen env.checker.registry s st.entries := by
  obtain ⟨vs, -, h2, -, h4⟩ := liveCheck_ext h
  refine ⟨_, h4, ?_⟩
  have := foldl_seen (es := vs.map (·.1)) (new_seen env.checker.registry)
  rw [List.nil_append, ← h2] at this
  refine this.congr ?_
  rw [h2]
  unfold Stats.finalize
  dsimp only
  split <;> rfl

/-- C65. The coverage is the number of those attributes, metrics and events of the registry that were seen, over the number
of all of them. -/
theorem coverage_ratio {env : Env} {samples : List Sample} {st : St} {s : Stats}
    (h : liveCheck env false samples = .ok st) (hs : st.stats = some s) :
    let all := s.regAttrs.length + s.regMetrics.length + s.regEvents.length
    s.coverage = if all = 0 then (0, 1) else
      (((s.regAttrs.map Prod.fst).filter fun n => decide (0 < st.entries.countP (IsAttr n))).length
        + ((s.regMetrics.map Prod.fst).filter fun n => decide (0 < st.entries.countP (IsMetric n))).length
        + ((s.regEvents.map Prod.fst).filter fun n =>
            decide (0 < if n = "" then 0 else st.entries.countP (IsEvent n))).length, all) := by
  obtain ⟨s', hs', sn⟩ := coverage_counts h
  rw [hs] at hs'
  cases hs'
  have hfin : ∃ t : Stats, s = t.finalize := by
    obtain ⟨vs, -, -, -, h4⟩ := liveCheck_ext h
    rw [hs] at h4
    exact ⟨_, Option.some.inj h4⟩
  have fil : ∀ {nm : String → Prop} {reg other : List (String × Nat)} {count : String → Nat},
      Cover nm reg other count →
      nonZero reg = ((reg.map Prod.fst).filter fun n => decide (0 < count n)).length := by
    intro nm reg other count c
    rw [nonZero_eq _ c.nodup]
    congr 1
    apply List.filter_congr
    intro n hn
    rw [(c.inReg n ((c.keys n).1 hn)).1]
  rw [← fil sn.attrs, ← fil sn.metrics, ← fil sn.events]
  obtain ⟨t, ht⟩ := hfin
  rw [ht]
  unfold Stats.finalize
  dsimp only
  by_cases hz : 0 < t.regAttrs.length + t.regMetrics.length + t.regEvents.length
  · rw [if_pos hz]
    dsimp only
    rw [if_neg (by omega)]
  · rw [if_neg hz]
    dsimp only
    rw [if_pos (by omega)]

end Verif.LiveCheck
