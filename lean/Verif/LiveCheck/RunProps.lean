import Verif.LiveCheck.RunSpec
/-
A run of the live check is what RunSpec says it is.
-/
namespace Verif.LiveCheck
open Verif.Util Verif.Semconv

/-! ### Results -/

theorem Result.add_all (m : Option Modifier) (s : SRef) (r : Result) (f : Finding) :
    (r.add m s f).all = r.all ++ (reported m s f).toList := by
  unfold Result.add reported
  cases m with
  | none => rfl
  | some m =>
    dsimp only
    cases h : m.apply f s <;> simp

theorem Result.addList_all (m : Option Modifier) (s : SRef) (fs : List Finding) (r : Result) :
    (r.addList m s fs).all = r.all ++ fs.filterMap (reported m s) := by
  unfold Result.addList
  induction fs generalizing r with
  | nil => simp
  | cons f fs ih =>
    rw [List.foldl_cons, ih, Result.add_all]
    cases h : reported m s f <;> simp [h]

/-- The highest level of a result is that of its findings. -/
def ResOk (r : Result) : Prop :=
  (r.highest = none ↔ r.all = []) ∧
  ∀ l, r.highest = some l → (∃ f ∈ r.all, f.level = l) ∧ ∀ f ∈ r.all, f.level ≤ l

theorem ResOk.empty : ResOk {} := ⟨by simp, by simp⟩

theorem level_le_max_left (a b : Level) : a ≤ a.max b := by cases a <;> cases b <;> decide
theorem level_le_max_right (a b : Level) : b ≤ a.max b := by cases a <;> cases b <;> decide
theorem level_max_or (a b : Level) : a.max b = a ∨ a.max b = b := by cases a <;> cases b <;> decide
theorem level_le_refl (a : Level) : a ≤ a := by cases a <;> decide
theorem level_le_trans {a b c : Level} (h : a ≤ b) (h' : b ≤ c) : a ≤ c := Nat.le_trans h h'
theorem level_le_antisymm {a b : Level} (h : a ≤ b) (h' : b ≤ a) : a = b := by
  revert h h'; cases a <;> cases b <;> decide

theorem ResOk.push {r : Result} (h : ResOk r) (f : Finding) :
    ResOk { all := r.all ++ [f], highest := some (match r.highest with | none => f.level | some p => p.max f.level) } := by
  refine ⟨by simp, ?_⟩
  intro l hl
  dsimp only at hl ⊢
  cases hr : r.highest with
  | none =>
    have := h.1.1 hr
    rw [hr] at hl
    have hl : f.level = l := Option.some.inj hl
    rw [this]
    refine ⟨⟨f, by simp, hl⟩, ?_⟩
    intro g hg
    simp at hg
    rw [hg, hl]; exact level_le_refl _
  | some p =>
    rw [hr] at hl
    have hl : p.max f.level = l := Option.some.inj hl
    obtain ⟨⟨q, hq, hql⟩, hall⟩ := h.2 p hr
    subst hl
    refine ⟨?_, ?_⟩
    · rcases level_max_or p f.level with h | h <;> rw [h]
      · exact ⟨q, by simp [hq], hql⟩
      · exact ⟨f, by simp, rfl⟩
    · intro g hg
      rw [List.mem_append] at hg
      rcases hg with hg | hg
      · exact level_le_trans (hall g hg) (level_le_max_left _ _)
      · simp at hg; rw [hg]; exact level_le_max_right _ _

theorem ResOk.add {r : Result} (h : ResOk r) (m : Option Modifier) (s : SRef) (f : Finding) : ResOk (r.add m s f) := by
  unfold Result.add
  cases m with
  | none => exact h.push f
  | some m =>
    dsimp only
    cases m.apply f s with
    | none => exact h
    | some g => exact h.push g

theorem ResOk.addList {r : Result} (h : ResOk r) (m : Option Modifier) (s : SRef) (fs : List Finding) :
    ResOk (r.addList m s fs) := by
  unfold Result.addList
  induction fs generalizing r with
  | nil => exact h
  | cons f fs ih => exact ih (h.add m s f)

theorem Acc.add_add (env : Env) (s : SRef) (a : Acc) (fs gs : List Finding) :
    (a.add env s fs).add env s gs = a.add env s (fs ++ gs) := by
  simp [Acc.add, Result.addList, List.foldl_append]

theorem Acc.add_nil (env : Env) (s : SRef) (a : Acc) : a.add env s [] = a := by
  simp [Acc.add, Result.addList]

theorem advise_spec {env : Env} {o : Occ} {advs : List Advisor} {a b : Acc}
    (h : advise env o.ref o.signal o.attr o.group advs a = .ok b) :
    ∃ gs, advice o advs = .ok gs ∧ b = a.add env o.ref gs := by
  induction advs generalizing a with
  | nil =>
    simp only [advise] at h
    exact ⟨[], rfl, by rw [Acc.add_nil]; exact (Except.ok.inj h).symm⟩
  | cons x l ih =>
    rw [advise] at h
    rw [advice]
    cases hx : x o.ref o.signal o.attr o.group with
    | error e => rw [hx] at h; exact nomatch h
    | ok fs =>
      rw [hx] at h
      obtain ⟨gs, hgs, hb⟩ := ih h
      rw [hgs]
      exact ⟨fs ++ gs, rfl, by rw [hb, Acc.add_add]⟩

/-! ### Runs -/

/-- The name that is counted for an entry. -/
def cover (e : Entry) (t : Stats) : Stats :=
  match e.ref with
  | .attribute a => t.coverAttr (coveredName a e.result)
  | .metric m => t.coverMetric m.name
  | .log l => t.coverEvent l.eventName
  | _ => t

/-- The statistics after one more entry. -/
def step (t : Stats) (e : Entry) : Stats := cover e ((t.incEntity e.kind).addResult e.result)

/-- An entry and the findings before the modifier. -/
def Rep (env : Env) (o : Occ) (v : Entry × List Finding) : Prop :=
  v.1.kind = o.kind ∧ v.1.ref = o.ref ∧ Found env o v.2 ∧ v.1.result.all = v.2.filterMap (reported env.modifier o.ref) ∧
  ResOk v.1.result

/-- `st'` comes from `st` by looking at `os`. -/
def Ext (env : Env) (os : List Occ) (st st' : St) : Prop :=
  ∃ vs : List (Entry × List Finding), Forall2 (Rep env) os vs ∧ st'.entries = st.entries ++ vs.map (·.1) ∧
    st'.emitted = st.emitted ++ vs.flatMap (·.2) ∧ st'.stats = st.stats.map fun t => (vs.map (·.1)).foldl step t

theorem Ext.refl (env : Env) (st : St) : Ext env [] st st :=
  ⟨[], .nil, by simp, by simp, by cases st.stats <;> simp⟩

theorem Ext.trans {env : Env} {a b : List Occ} {s t u : St} (h : Ext env a s t) (h' : Ext env b t u) :
    Ext env (a ++ b) s u := by
  obtain ⟨v, h1, h2, h3, h4⟩ := h
  obtain ⟨w, g1, g2, g3, g4⟩ := h'
  refine ⟨v ++ w, h1.append g1, by simp [g2, h2], by simp [g3, h3], ?_⟩
  rw [g4, h4]
  cases s.stats <;> simp [List.foldl_append]

/-- One thing is looked at. -/
theorem ext_one {env : Env} {o : Occ} {a : Acc} {st st' : St}
    (ha : advise env o.ref o.signal o.attr o.group env.advisors (({} : Acc).add env o.ref o.first) = .ok a)
    (he : st'.entries = st.entries ++ [{ kind := o.kind, ref := o.ref, result := (a.add env o.ref o.last).result }])
    (hm : st'.emitted = st.emitted ++ (a.add env o.ref o.last).emitted)
    (hs : st'.stats = st.stats.map fun t => step t { kind := o.kind, ref := o.ref, result := (a.add env o.ref o.last).result }) :
    Ext env [o] st st' := by
  obtain ⟨gs, hgs, rfl⟩ := advise_spec ha
  rw [Acc.add_add, Acc.add_add, ← List.append_assoc] at he hm hs
  refine ⟨[({ kind := o.kind, ref := o.ref, result := (({} : Acc).add env o.ref (o.first ++ gs ++ o.last)).result },
    o.first ++ gs ++ o.last)], .cons ⟨rfl, rfl, ⟨gs, hgs, rfl⟩, ?_, ?_⟩ .nil, he, ?_, ?_⟩
  · exact (Result.addList_all _ _ _ _).trans (by simp)
  · exact ResOk.empty.addList _ _ _
  · rw [hm]; simp [Acc.add]
  · rw [hs]; simp

theorem runAdvisors_ext {env : Env} {kind : String} {s : SRef} {g : Option Signal} {signal : Sample} {st st' : St}
    (hk : ∀ r t, cover { kind, ref := s, result := r } t = t)
    (h : runAdvisors env kind s g signal st = .ok st') :
    Ext env [{ kind, ref := s, signal, group := g }] st st' := by
  unfold runAdvisors at h
  cases ha : advise env s signal none g env.advisors {} with
  | error e => rw [ha] at h; exact nomatch h
  | ok a =>
    rw [ha] at h
    have h := (Except.ok.inj h).symm
    refine ext_one (a := a) ?_ ?_ ?_ ?_
    · dsimp only; rw [Acc.add_nil]; exact ha
    · dsimp only; rw [h, Acc.add_nil]; rfl
    · dsimp only; rw [h, Acc.add_nil]; rfl
    · dsimp only; rw [h, Acc.add_nil]
      simp only [St.record, step, hk]

theorem runAttr_ext {env : Env} {g : Option Signal} {signal : Sample} {a : SAttr} {st st' : St}
    (h : runAttr env g signal st a = .ok st') : Ext env [attrOcc env.checker g signal a] st st' := by
  unfold runAttr at h
  dsimp only at h
  cases ha : advise env (.attribute a) signal (env.checker.findAny a.name) g env.advisors
      (({} : Acc).add env (.attribute a) (attributeFirst signal a (env.checker.findAny a.name))) with
  | error e => rw [ha] at h; exact nomatch h
  | ok r =>
    rw [ha] at h
    have h := (Except.ok.inj h).symm
    refine ext_one (a := r) ha ?_ ?_ ?_
    · rw [h, attrOcc, Acc.add_nil]; rfl
    · rw [h, attrOcc, Acc.add_nil]; rfl
    · rw [h, attrOcc, Acc.add_nil]
      simp only [St.record, Option.map_map]; rfl

theorem runList_ext {α : Type} {env : Env} {f : St → α → Except String St} {os : α → List Occ}
    (hf : ∀ st x st', f st x = .ok st' → Ext env (os x) st st') {l : List α} {st st' : St}
    (h : runList f l st = .ok st') : Ext env (l.flatMap os) st st' := by
  induction l generalizing st with
  | nil => cases h; exact Ext.refl env _
  | cons x l ih =>
    rw [runList] at h
    cases hx : f st x with
    | error e => rw [hx] at h; exact nomatch h
    | ok st1 =>
      rw [hx] at h
      exact (hf _ _ _ hx).trans (ih h)

theorem runAttrs_ext {env : Env} {g : Option Signal} {signal : Sample} {l : List SAttr} {st st' : St}
    (h : runAttrs env g signal l st = .ok st') : Ext env (l.map (attrOcc env.checker g signal)) st st' := by
  have := runList_ext (os := fun a => [attrOcc env.checker g signal a]) (fun _ _ _ h => runAttr_ext h) h
  rw [List.map_eq_flatMap]; exact this

theorem runPlain_ext {env : Env} {kind : String} {s : SRef} {attrs : List SAttr} {g : Option Signal} {signal : Sample}
    {st st' : St} (hk : ∀ r t, cover { kind, ref := s, result := r } t = t)
    (h : runPlain env kind s attrs g signal st = .ok st') :
    Ext env (withAttrs env.checker kind s attrs g signal) st st' := by
  unfold runPlain at h
  cases ha : runAdvisors env kind s g signal st with
  | error e => rw [ha] at h; exact nomatch h
  | ok st1 =>
    rw [ha] at h
    exact (runAdvisors_ext hk ha).trans (runAttrs_ext h)

theorem runPoint_ext {env : Env} {mk : Point → SRef} {g : Option Signal} {signal : Sample} {p : Point} {st st' : St}
    (hk : ∀ r t, cover { kind := "data_point", ref := mk p, result := r } t = t)
    (h : runPoint env mk g signal st p = .ok st') : Ext env (pointOccs env.checker mk g signal p) st st' := by
  unfold runPoint at h
  cases ha : runPlain env "data_point" (mk p) p.attrs g signal st with
  | error e => rw [ha] at h; exact nomatch h
  | ok st1 =>
    rw [ha] at h
    refine (runPlain_ext hk ha).trans (runList_ext ?_ h)
    intro st x st' hx
    exact runPlain_ext (fun _ _ => rfl) hx

theorem runPoints_ext {env : Env} {g : Option Signal} {signal : Sample} {p : Option Points} {st st' : St}
    (h : runPoints env g signal st p = .ok st') : Ext env (pointsOccs env.checker g signal p) st st' := by
  match p with
  | none => cases h; exact Ext.refl env _
  | some (.number l) => exact runList_ext (fun _ _ _ hx => runPoint_ext (fun _ _ => rfl) hx) h
  | some (.histogram l) => exact runList_ext (fun _ _ _ hx => runPoint_ext (fun _ _ => rfl) hx) h
  | some (.exponential l) => exact runList_ext (fun _ _ _ hx => runPoint_ext (fun _ _ => rfl) hx) h

theorem runMetric_ext {env : Env} {m : Metric} {st st' : St}
    (h : runMetric env (.metric m) st m = .ok st') : Ext env (occs env (.metric m)) st st' := by
  unfold runMetric at h
  dsimp only at h
  unfold occs
  dsimp only
  generalize hg : env.checker.findMetric m.name = g at h ⊢
  generalize hf : (if g.isNone = true then
      [mkFinding (.metric m) "missing_metric" .violation "Metric does not exist in the registry." []] else []) = first at h ⊢
  cases ha : advise env (.metric m) (.metric m) none g env.advisors (({} : Acc).add env (.metric m) first) with
  | error e => rw [ha] at h; exact nomatch h
  | ok r =>
    rw [ha] at h
    dsimp only at h
    cases hp : runPoints env g (.metric m) st m.points with
    | error e => rw [hp] at h; exact nomatch h
    | ok st1 =>
      rw [hp] at h
      have h := (Except.ok.inj h).symm
      refine (runPoints_ext hp).trans (ext_one (a := r) ha ?_ ?_ ?_)
      · rw [h]; rfl
      · rw [h]; rfl
      · rw [h]; simp only [St.record, Option.map_map]; rfl

theorem runLog_ext {env : Env} {l : Log} {st st' : St}
    (h : runLog env (.log l) st l = .ok st') : Ext env (occs env (.log l)) st st' := by
  unfold runLog at h
  dsimp only at h
  unfold occs
  dsimp only
  change _ at h
  rw [show (if l.eventName = "" then none else env.checker.findEvent l.eventName) = eventOf env.checker l from rfl] at h
  generalize hg : eventOf env.checker l = g at h ⊢
  generalize hf : (if l.eventName ≠ "" ∧ g.isNone = true then
      [mkFinding (.log l) "missing_event" .violation ("Event '" ++ l.eventName ++ "' does not exist in the registry.") []]
      else []) = first at h ⊢
  cases ha : advise env (.log l) (.log l) none g env.advisors (({} : Acc).add env (.log l) first) with
  | error e => rw [ha] at h; exact nomatch h
  | ok r =>
    rw [ha] at h
    dsimp only at h
    cases hp : runAttrs env g (.log l) l.attrs st with
    | error e => rw [hp] at h; exact nomatch h
    | ok st1 =>
      rw [hp] at h
      have h := (Except.ok.inj h).symm
      refine (runAttrs_ext hp).trans (ext_one (a := r) ha ?_ ?_ ?_)
      · rw [h]; rfl
      · rw [h]; rfl
      · rw [h]; simp only [St.record, Option.map_map]; rfl

theorem runSpan_ext {env : Env} {x : Span} {st st' : St}
    (h : runSpan env none (.span x) st x = .ok st') : Ext env (occs env (.span x)) st st' := by
  unfold runSpan at h
  cases ha : runPlain env "span" (.span x) x.attrs none (.span x) st with
  | error e => rw [ha] at h; exact nomatch h
  | ok st1 =>
    rw [ha] at h
    dsimp only at h
    cases hb : runList (runSpanEvent env none (.span x)) x.events st1 with
    | error e => rw [hb] at h; exact nomatch h
    | ok st2 =>
      rw [hb] at h
      refine ((runPlain_ext (fun _ _ => rfl) ha).trans (runList_ext ?_ hb)).trans (runList_ext ?_ h)
      · intro st x st' hx; exact runPlain_ext (fun _ _ => rfl) hx
      · intro st x st' hx; exact runPlain_ext (fun _ _ => rfl) hx

theorem runSample_ext {env : Env} {s : Sample} {st st' : St} (h : runSample env st s = .ok st') :
    Ext env (occs env s) st st' := by
  cases s with
  | «attribute» a => exact runAttr_ext h
  | span x => exact runSpan_ext h
  | spanEvent x => exact runPlain_ext (fun _ _ => rfl) h
  | spanLink x => exact runPlain_ext (fun _ _ => rfl) h
  | resource x => exact runPlain_ext (fun _ _ => rfl) h
  | scope x => exact runPlain_ext (fun _ _ => rfl) h
  | metric x => exact runMetric_ext h
  | log x => exact runLog_ext h
  | profile x => exact runPlain_ext (fun _ _ => rfl) h

theorem runAll_ext {env : Env} {samples : List Sample} {cur : Option Resource} {st st' : St}
    (h : runAll env cur samples st = .ok st') : Ext env ((attachAll cur samples).flatMap (occs env)) st st' := by
  induction samples generalizing cur st with
  | nil => cases h; exact Ext.refl env _
  | cons s l ih =>
    rw [runAll] at h
    cases hx : runSample env st (attach (nextResource cur s) s) with
    | error e => rw [hx] at h; exact nomatch h
    | ok st1 =>
      rw [hx] at h
      exact (runSample_ext hx).trans (ih h)

/-- Everything about a run that ends. -/
theorem liveCheck_ext {env : Env} {noStats : Bool} {samples : List Sample} {st : St}
    (h : liveCheck env noStats samples = .ok st) :
    ∃ vs : List (Entry × List Finding), Forall2 (Rep env) ((attachAll none samples).flatMap (occs env)) vs ∧
      st.entries = vs.map (·.1) ∧ st.emitted = vs.flatMap (·.2) ∧
      st.stats = if noStats then none
        else some (((vs.map (·.1)).foldl step (Stats.new env.checker.registry)).finalize) := by
  unfold liveCheck at h
  dsimp only at h
  generalize hs : (if noStats = true then none else some (Stats.new env.checker.registry)) = stats at h
  cases hr : runAll env none samples { stats := stats } with
  | error e => rw [hr] at h; exact nomatch h
  | ok st1 =>
    rw [hr] at h
    have h := (Except.ok.inj h).symm
    obtain ⟨vs, h1, h2, h3, h4⟩ := runAll_ext hr
    refine ⟨vs, h1, by rw [h]; simpa using h2, by rw [h]; simpa using h3, ?_⟩
    rw [h]
    dsimp only
    rw [h4]
    dsimp only
    rw [← hs]
    cases noStats <;> simp

/-- A run that ends reports, about everything there is to look at in the samples and in that order, all findings of the
advisors and of the check itself, as far as the modifier keeps them. -/
theorem run_report {env : Env} {noStats : Bool} {samples : List Sample} {st : St}
    (h : liveCheck env noStats samples = .ok st) :
    Forall2 (Reports env) ((attachAll none samples).flatMap (occs env)) st.entries := by
  obtain ⟨vs, h1, h2, -, -⟩ := liveCheck_ext h
  rw [h2]
  clear h2
  revert h1
  generalize (attachAll none samples).flatMap (occs env) = os
  intro h1
  induction h1 with
  | nil => exact .nil
  | cons hr _ ih => exact .cons ⟨hr.1, hr.2.1, _, hr.2.2.1, hr.2.2.2.1⟩ ih

end Verif.LiveCheck
