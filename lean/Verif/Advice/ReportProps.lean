import Verif.Advice.FindingProps
/-
C237-C242: the findings of the default policy in the report of a run, what does not hold, and the entity definitions
policies can read.
-/
namespace Verif.Advice
open Verif.Util Verif.LiveCheck Verif.Semconv

/-! ### In the report -/

/-- The ids of the findings of the default policy. -/
def policyIds : List String := ["missing_namespace", "invalid_format", "illegal_namespace", "extends_namespace"]

/-- A finding of the check itself about `signal`. -/
def Builtin (signal : Sample) (f : Finding) : Prop :=
  ∃ id l m c, f = mkFinding signal id l m c ∧ id ∉ policyIds

theorem builtin_deprecated {s : SRef} {signal : Sample} {a : Option AttrDef} {g : Option Signal} {fs : List Finding}
    (h : deprecatedAdvisor s signal a g = .ok fs) : ∀ f ∈ fs, Builtin signal f := by
  have key : ∀ (l : List Deprecated) kind k n, ∀ f ∈ l.map (deprecatedFinding signal kind k n), Builtin signal f := by
    intro l kind k n f hf
    obtain ⟨d, -, rfl⟩ := List.mem_map.1 hf
    exact ⟨_, _, _, _, rfl, by decide⟩
  unfold deprecatedAdvisor at h
  split at h <;> cases h <;> first | exact key _ _ _ _ | exact nofun

theorem builtin_stability {s : SRef} {signal : Sample} {a : Option AttrDef} {g : Option Signal} {fs : List Finding}
    (h : stabilityAdvisor s signal a g = .ok fs) : ∀ f ∈ fs, Builtin signal f := by
  have key : ∀ (l : List String) kind k n, ∀ f ∈ l.map (unstableFinding signal kind k n), Builtin signal f := by
    intro l kind k n f hf
    obtain ⟨d, -, rfl⟩ := List.mem_map.1 hf
    exact ⟨_, _, _, _, rfl, by decide⟩
  unfold stabilityAdvisor at h
  split at h <;> cases h <;> first | exact key _ _ _ _ | exact nofun

theorem builtin_enum {s : SRef} {signal : Sample} {a : Option AttrDef} {g : Option Signal} {fs : List Finding}
    (h : enumAdvisor s signal a g = .ok fs) : ∀ f ∈ fs, Builtin signal f := by
  unfold enumAdvisor at h
  split at h
  · split at h
    · split at h
      · split at h
        · cases h
          intro f hf
          rw [List.mem_singleton.1 hf]
          exact ⟨_, _, _, _, rfl, by decide⟩
        · cases h; exact nofun
      · cases h; exact nofun
    · cases h; exact nofun
  · cases h; exact nofun

theorem builtin_checkAttributes (defs : List AttrDef) (attrs : List SAttr) (signal : Sample) :
    ∀ f ∈ checkAttributes defs attrs signal, Builtin signal f := by
  intro f hf
  obtain ⟨d, -, rfl⟩ := List.mem_map.1 hf
  exact ⟨_, _, _, _, rfl, by cases d.req <;> decide⟩

theorem builtin_attributeFindings (k : SigKind) (attrs : List SAttr) (signal : Sample) (g : Option Signal) :
    ∀ f ∈ attributeFindings k attrs signal g, Builtin signal f := by
  unfold attributeFindings
  split
  · exact nofun
  · split
    · exact builtin_checkAttributes _ _ _
    · exact nofun

theorem builtin_one {signal : Sample} {id : String} {l : Level} {m : String} {c : List (String × CtxVal)}
    (h : id ∉ policyIds) : ∀ f ∈ [mkFinding signal id l m c], Builtin signal f := by
  intro f hf
  rw [List.mem_singleton.1 hf]
  exact ⟨_, _, _, _, rfl, h⟩

theorem builtin_type {s : SRef} {signal : Sample} {a : Option AttrDef} {g : Option Signal} {fs : List Finding}
    (h : typeAdvisor s signal a g = .ok fs) : ∀ f ∈ fs, Builtin signal f := by
  unfold typeAdvisor at h
  split at h
  · split at h
    · cases h
      unfold typeFindings
      split
      · split
        · refine builtin_one ?_; decide
        · exact nofun
      · split
        · refine builtin_one ?_; decide
        · exact nofun
      · split
        · refine builtin_one ?_; decide
        · exact nofun
    · cases h; exact nofun
  · split at h
    · cases h; exact nofun
    · cases h
      intro f hf
      have hf' := List.mem_append.1 hf
      clear hf
      rcases hf' with hf | hf
      · revert hf f
        unfold instrumentFindings
        split
        · refine builtin_one ?_; decide
        · split
          · exact nofun
          · split
            · exact nofun
            · refine builtin_one ?_; decide
      · revert hf f
        unfold unitFindings
        split
        · exact nofun
        · split
          · exact nofun
          · refine builtin_one ?_; decide
  · cases h; exact builtin_attributeFindings _ _ _ _
  · cases h; exact builtin_attributeFindings _ _ _ _
  · cases h; exact builtin_attributeFindings _ _ _ _
  · cases h; exact nofun

theorem builtin_evalAssoc (c : Checker) (attrs : List SAttr) (signal : Sample) (x : Assoc EntityKey) :
    ∀ f ∈ (evalAssoc c attrs signal x).findings, Builtin signal f := by
  refine assocInd (P := fun x => ∀ f ∈ (evalAssoc c attrs signal x).findings, Builtin signal f) ?_ ?_ ?_ x
  · intro k
    unfold evalAssoc
    split
    · exact nofun
    · intro f hf
      obtain ⟨d, -, rfl⟩ := List.mem_map.1 hf
      exact ⟨_, _, _, _, rfl, by cases d.req <;> decide⟩
  · intro l ih
    unfold evalAssoc oneOfEval
    split
    · intro f hf
      obtain ⟨e, he, hf⟩ := List.mem_flatMap.1 hf
      have he := (List.mem_filter.1 he).1
      rw [evalAssocs_eq] at he
      obtain ⟨y, hy, rfl⟩ := List.mem_map.1 he
      exact ih y hy f hf
    · refine builtin_one ?_; decide
  · intro l ih
    unfold evalAssoc
    intro f hf
    obtain ⟨e, he, hf⟩ := List.mem_flatMap.1 hf
    rw [evalAssocs_eq] at he
    obtain ⟨y, hy, rfl⟩ := List.mem_map.1 he
    exact ih y hy f hf

theorem builtin_assoc (env : Env) (k : SigKind) (signal : Sample) (g : Option Signal) :
    ∀ f ∈ assocFindings env k signal g, Builtin signal f := by
  unfold assocFindings
  split
  · exact nofun
  · split
    · unfold checkAssocs
      split
      · exact nofun
      · exact builtin_evalAssoc _ _ _ _
      · exact builtin_evalAssoc _ _ _ _
    · exact nofun

theorem builtin_attributeFirst (signal : Sample) (a : SAttr) (d : Option AttrDef) :
    ∀ f ∈ attributeFirst signal a d, Builtin signal f := by
  unfold attributeFirst
  split
  · refine builtin_one ?_; decide
  · split
    · refine builtin_one ?_; decide
    · exact nofun

/-- Besides the advisors, the check itself makes findings of its own; a metric is its own signal. -/
theorem occ_builtin {env : Env} {s : Sample} {o : Occ} (ho : o ∈ occs env s) :
    (∀ f ∈ o.first ++ o.last, Builtin o.signal f) ∧ o.signal = s ∧ ∀ m, o.ref = .metric m → s = .metric m := by
  have hattr : ∀ c g a, (∀ f ∈ (attrOcc c g s a).first ++ (attrOcc c g s a).last, Builtin (attrOcc c g s a).signal f) ∧
      (attrOcc c g s a).signal = s ∧ ∀ m, (attrOcc c g s a).ref = .metric m → s = .metric m := by
    intro c g a
    refine ⟨?_, rfl, fun _ h => by cases h⟩
    intro f hf
    rw [show (attrOcc c g s a).last = [] from rfl, List.append_nil] at hf
    exact builtin_attributeFirst _ _ _ f hf
  have hwith : ∀ c k r l g, (∀ m, r ≠ SRef.metric m) → ∀ o ∈ withAttrs c k r l g s,
      (∀ f ∈ o.first ++ o.last, Builtin o.signal f) ∧ o.signal = s ∧ ∀ m, o.ref = .metric m → s = .metric m := by
    intro c k r l g hr o ho
    rcases List.mem_cons.1 ho with rfl | ho
    · exact ⟨nofun, rfl, fun m hm => absurd hm (hr m)⟩
    · obtain ⟨a, -, rfl⟩ := List.mem_map.1 ho
      exact hattr _ _ _
  have hpoint : ∀ c mk g, (∀ p m, mk p ≠ SRef.metric m) → ∀ p, ∀ o ∈ pointOccs c mk g s p,
      (∀ f ∈ o.first ++ o.last, Builtin o.signal f) ∧ o.signal = s ∧ ∀ m, o.ref = .metric m → s = .metric m := by
    intro c mk g hmk p o ho
    rcases List.mem_append.1 ho with ho | ho
    · exact hwith _ _ _ _ _ (hmk p) o ho
    · obtain ⟨e, -, ho⟩ := List.mem_flatMap.1 ho
      exact hwith _ _ _ _ _ (fun _ h => by cases h) o ho
  unfold occs at ho
  dsimp only at ho
  split at ho
  · rw [List.mem_singleton.1 ho]; exact hattr _ _ _
  · rcases List.mem_append.1 ho with ho | ho
    · rcases List.mem_append.1 ho with ho | ho
      · exact hwith _ _ _ _ _ (fun _ h => by cases h) o ho
      · obtain ⟨e, -, ho⟩ := List.mem_flatMap.1 ho
        exact hwith _ _ _ _ _ (fun _ h => by cases h) o ho
    · obtain ⟨e, -, ho⟩ := List.mem_flatMap.1 ho
      exact hwith _ _ _ _ _ (fun _ h => by cases h) o ho
  · exact hwith _ _ _ _ _ (fun _ h => by cases h) o ho
  · exact hwith _ _ _ _ _ (fun _ h => by cases h) o ho
  · exact hwith _ _ _ _ _ (fun _ h => by cases h) o ho
  · exact hwith _ _ _ _ _ (fun _ h => by cases h) o ho
  · exact hwith _ _ _ _ _ (fun _ h => by cases h) o ho
  · rename_i m
    rcases List.mem_append.1 ho with ho | ho
    · unfold pointsOccs at ho
      split at ho
      · cases ho
      all_goals
        obtain ⟨p, -, ho⟩ := List.mem_flatMap.1 ho
        exact hpoint _ _ _ (fun _ _ h => by cases h) p o ho
    · rw [List.mem_singleton.1 ho]
      refine ⟨?_, rfl, fun m' hm => by cases hm; rfl⟩
      intro f hf
      rcases List.mem_append.1 hf with hf | hf
      · dsimp only at hf
        split at hf
        · refine builtin_one ?_ f hf; decide
        · cases hf
      · exact builtin_assoc _ _ _ _ f hf
  · rename_i l
    rcases List.mem_append.1 ho with ho | ho
    · obtain ⟨a, -, rfl⟩ := List.mem_map.1 ho
      exact hattr _ _ _
    · rw [List.mem_singleton.1 ho]
      refine ⟨?_, rfl, fun _ h => by cases h⟩
      intro f hf
      rcases List.mem_append.1 hf with hf | hf
      · dsimp only at hf
        split at hf
        · refine builtin_one ?_ f hf; decide
        · cases hf
      · exact builtin_assoc _ _ _ _ f hf

/-- All findings about a thing are findings of the check itself or of the policies. -/
theorem found_cases {env : Env} {rego : Advisor} (hadv : env.advisors = advisors rego) {s : Sample} {o : Occ}
    (ho : o ∈ occs env s) {fs : List Finding} (hf : Found env o fs) :
    ∃ rs, rego o.ref o.signal o.attr o.group = .ok rs ∧ (∀ f ∈ rs, f ∈ fs) ∧ ∀ f ∈ fs, f ∈ rs ∨ Builtin o.signal f := by
  obtain ⟨gs, hgs, rfl⟩ := hf
  rw [hadv] at hgs
  obtain ⟨d, t, u, n, r, h1, h2, h3, h4, h5, rfl⟩ := advice_advisors hgs
  obtain ⟨hb, -, -⟩ := occ_builtin ho
  refine ⟨r, h5, ?_, ?_⟩
  · intro f hf; simp [hf]
  · intro f hf
    simp only [List.mem_append] at hf
    rcases hf with (hf | hf | hf | hf | hf | hf) | hf
    · exact .inr (hb f (List.mem_append_left _ hf))
    · exact .inr (builtin_deprecated h1 f hf)
    · exact .inr (builtin_stability h2 f hf)
    · exact .inr (builtin_type h3 f hf)
    · exact .inr (builtin_enum h4 f hf)
    · exact .inl hf
    · exact .inr (hb f (List.mem_append_right _ hf))

theorem says_ids (r : Registry) (s : SRef) : ∀ f ∈ says r s, f.id ∈ policyIds := by
  intro f hf
  cases s with
  | «attribute» a =>
    cases (attribute_findings r a f).1 hf with
    | _ => simp [policyIds, makeAdvice]
  | metric m =>
    rw [show says r (.metric m) = invalidMetric m.name from rfl] at hf
    unfold invalidMetric at hf
    split at hf
    · cases hf
    · rw [List.mem_singleton.1 hf]; simp [policyIds, makeAdvice]
  | _ => cases hf

/-- C237-C240. In the report of a run with the default policy and no rules for findings, the findings with the ids of the
policy are, for everything that is checked, those the policy says, with the signal they are about. -/
theorem policy_reported {env : Env} {r : Registry} (hc : env.checker = Checker.new r)
    (hadv : env.advisors = advisors (defaultRego env.checker)) (hm : env.modifier = none) {noStats : Bool}
    {samples : List Sample} {st : St} (h : liveCheck env noStats samples = .ok st) :
    Forall2 (fun o e => e.kind = o.kind ∧ e.ref = o.ref ∧
        ∀ f : Finding, f.id ∈ policyIds → (f ∈ e.result.all ↔ ∃ g ∈ says r o.ref, f = fill o.signal g))
      ((attachAll none samples).flatMap (occs env)) st.entries := by
  have hr := run_report h
  have hall : ∀ o ∈ (attachAll none samples).flatMap (occs env), ∃ s, o ∈ occs env s := by
    intro o ho
    obtain ⟨s, -, ho⟩ := List.mem_flatMap.1 ho
    exact ⟨s, ho⟩
  revert hr hall
  generalize (attachAll none samples).flatMap (occs env) = os
  generalize st.entries = es
  intro hr hall
  induction hr with
  | nil => exact .nil
  | @cons o e os es h1 h2 ih =>
    refine .cons ?_ (ih fun o ho => hall o (List.mem_cons_of_mem _ ho))
    obtain ⟨hk, hre, fs, hf, ha⟩ := h1
    refine ⟨hk, hre, ?_⟩
    obtain ⟨s, hs⟩ := hall o List.mem_cons_self
    obtain ⟨rs, hrs, h3, h4⟩ := found_cases hadv hs hf
    have ha : e.result.all = fs := by
      rw [ha, hm]
      have : reported none o.ref = some := rfl
      rw [this, List.filterMap_some]
    rw [ha]
    have hrs' : rs = (says r o.ref).map (fill o.signal) := by
      unfold defaultRego regoAdvisor at hrs
      rw [hc] at hrs
      exact (Except.ok.inj hrs).symm
    intro f hid
    constructor
    · intro hf
      rcases h4 f hf with h5 | ⟨id, l, m, c, rfl, h5⟩
      · rw [hrs'] at h5
        obtain ⟨g, hg, rfl⟩ := List.mem_map.1 h5
        exact ⟨g, hg, rfl⟩
      · exact absurd hid h5
    · rintro ⟨g, hg, rfl⟩
      exact h3 _ (by rw [hrs']; exact List.mem_map.2 ⟨g, hg, rfl⟩)

/-! ### C241: findings name their signal -/

theorem applyOverrides_signal (g : Globs) (f : Finding) (s : SRef) (l : List COverride) :
    (applyOverrides g f s l).signalType = f.signalType ∧ (applyOverrides g f s l).signalName = f.signalName := by
  induction l with
  | nil => exact ⟨rfl, rfl⟩
  | cons c l ih =>
    unfold applyOverrides
    split
    · exact ⟨rfl, rfl⟩
    · exact ih

theorem reported_signal {m : Option Modifier} {s : SRef} {f f' : Finding} (h : reported m s f = some f') :
    f'.signalType = f.signalType ∧ f'.signalName = f.signalName := by
  cases m with
  | none => cases h; exact ⟨rfl, rfl⟩
  | some m =>
    unfold reported Modifier.apply at h
    dsimp only at h
    split at h
    · cases h
    · cases h; exact applyOverrides_signal _ _ _ _

/-- The finding says which signal it is about. -/
def Signed (s : Sample) (f : Finding) : Prop := f.signalType = s.signalType ∧ f.signalName = s.signalName

/-- C241. With policies that say nothing about signals, or the right thing, all findings in the report say the type and the
name of the signal in which they were found, also if rules change them. -/
theorem findings_signed {env : Env}
    {policies : SRef → Sample → Option AttrDef → Option Signal → Except String (List Finding)}
    (hadv : env.advisors = advisors (regoAdvisor policies))
    (hp : ∀ s ∈ attachAll none samples, ∀ o ∈ occs env s, ∀ fs, policies o.ref o.signal o.attr o.group = .ok fs → ∀ f ∈ fs,
      (f.signalType = none ∨ f.signalType = s.signalType) ∧ (f.signalName = none ∨ f.signalName = s.signalName))
    {noStats : Bool} {st : St} (h : liveCheck env noStats samples = .ok st) :
    ∀ e ∈ st.entries, ∃ s ∈ attachAll none samples, ∀ f ∈ e.result.all, Signed s f := by
  intro e he
  obtain ⟨o, ho, -, -, fs, hf, ha⟩ := (run_report h).mem_right he
  obtain ⟨s, hs, ho⟩ := List.mem_flatMap.1 ho
  refine ⟨s, hs, ?_⟩
  intro f' hf'
  rw [ha, List.mem_filterMap] at hf'
  obtain ⟨f, hfm, hre⟩ := hf'
  obtain ⟨e1, e2⟩ := reported_signal hre
  unfold Signed
  rw [e1, e2]
  have hsig := (occ_builtin ho).2.1
  obtain ⟨rs, hrs, -, h4⟩ := found_cases hadv ho hf
  rcases h4 f hfm with h5 | ⟨id, l, m, c, rfl, -⟩
  · unfold regoAdvisor at hrs
    cases hpo : policies o.ref o.signal o.attr o.group with
    | error x => rw [hpo] at hrs; cases hrs
    | ok gs =>
      rw [hpo] at hrs
      have hrs : gs.map (fill o.signal) = rs := Except.ok.inj hrs
      rw [← hrs] at h5
      obtain ⟨g, hg, rfl⟩ := List.mem_map.1 h5
      obtain ⟨h6, h7⟩ := hp s hs o ho gs hpo g hg
      unfold fill
      dsimp only
      rw [hsig]
      constructor
      · rcases h6 with h6 | h6 <;> rw [h6]
        · exact Option.none_or
        · cases s.signalType <;> rfl
      · rcases h7 with h7 | h7 <;> rw [h7]
        · exact Option.none_or
        · cases s.signalName <;> rfl
  · unfold mkFinding; dsimp only; rw [hsig]; exact ⟨rfl, rfl⟩

/-- C241. So it is with the default policy. -/
theorem default_signed {env : Env} (hadv : env.advisors = advisors (defaultRego env.checker)) {samples : List Sample}
    {noStats : Bool} {st : St} (h : liveCheck env noStats samples = .ok st) :
    ∀ e ∈ st.entries, ∃ s ∈ attachAll none samples, ∀ f ∈ e.result.all, Signed s f := by
  refine findings_signed (policies := fun s _ _ _ => .ok (deny (advise env.checker) s)) hadv ?_ h
  intro s _ o ho fs hfs f hf
  cases hfs
  have hm := (occ_builtin ho).2.2
  revert hf
  cases hr : o.ref with
  | «attribute» a =>
    intro hf
    have key : f.signalType = none ∧ f.signalName = none := by
      simp only [deny, List.mem_append] at hf
      rcases hf with ((hf | hf) | hf) | hf
      · unfold missingNamespace at hf; split at hf
        · cases hf
        · rw [List.mem_singleton.1 hf]; exact ⟨rfl, rfl⟩
      · unfold invalidFormat at hf; split at hf
        · cases hf
        · rw [List.mem_singleton.1 hf]; exact ⟨rfl, rfl⟩
      · unfold illegalNamespace at hf; split at hf
        · obtain ⟨ns, -, rfl⟩ := List.mem_map.1 hf; exact ⟨rfl, rfl⟩
        · cases hf
      · unfold extendsNamespace at hf; split at hf
        · split at hf
          · cases hf
          · rw [List.mem_singleton.1 hf]; exact ⟨rfl, rfl⟩
        · cases hf
    exact ⟨.inl key.1, .inl key.2⟩
  | metric m =>
    intro hf
    have hs := hm m hr
    subst hs
    rw [show deny (advise env.checker) (.metric m) = invalidMetric m.name from rfl] at hf
    unfold invalidMetric at hf
    split at hf
    · cases hf
    · rw [List.mem_singleton.1 hf]; exact ⟨.inr rfl, .inr rfl⟩
  | _ => intro hf; cases hf

end Verif.Advice
