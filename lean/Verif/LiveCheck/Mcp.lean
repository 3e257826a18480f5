import Verif.LiveCheck.Limits
/-
The live check of the MCP server, crates/weaver_mcp/src/service.rs:108-221 and 490-534 (C70): its compact output.
-/
namespace Verif.LiveCheck
open Verif.Util Verif.Semconv

/-! ### Model -/

/-- service.rs:510-517: each sample is checked by itself, without statistics; no resource is attached. -/
def mcpCheck (env : Env) : List Sample → Except String (List (Sample × List Entry))
  | [] => .ok []
  | s :: l => match runSample env { stats := none } s with
    | .error e => .error e
    | .ok st => match mcpCheck env l with
      | .error e => .error e
      | .ok r => .ok ((s, st.entries) :: r)

/-- Which results service.rs:142-221 `collect_compact_findings` reads from a sample: the results the sample and its parts
hold, in the order in which they were checked (`occs`), with `true` for those that are read. -/
def compactMask : Sample → List Bool
  | .attribute _ => [true]
  | .span x => true :: x.attrs.map (fun _ => true)
      ++ x.events.flatMap (fun e => false :: e.attrs.map (fun _ => true))
      ++ x.links.flatMap (fun l => false :: l.attrs.map (fun _ => false))
  | .spanEvent x => false :: x.attrs.map (fun _ => true)
  | .spanLink x => false :: x.attrs.map (fun _ => true)
  | .resource x => false :: x.attrs.map (fun _ => true)
  | .scope x => true :: x.attrs.map (fun _ => true)
  | .profile x => false :: x.attrs.map (fun _ => true)
  | .metric m => (match m.points with
      | none => []
      | some (.number l) | some (.histogram l) | some (.exponential l) =>
        l.flatMap (fun p => false :: p.attrs.map (fun _ => false)
          ++ p.exemplars.flatMap (fun e => false :: e.attrs.map (fun _ => false))))
      ++ [true]
  | .log l => l.attrs.map (fun _ => true) ++ [false]

/-- service.rs:110-122 `extract_findings`: id, level and message of each finding. -/
def extract (e : Entry) : List (String × Level × String) := e.result.all.map (fun f => (f.id, f.level, f.message))

/-- service.rs:142-221, the findings about one sample. -/
def compactSample (p : Sample × List Entry) : List (String × Level × String) :=
  ((p.2.zip (compactMask p.1)).filter (fun q => q.2)).flatMap (fun q => extract q.1)

/-- service.rs:519-533: the findings of the two outputs. -/
def fullOutput (r : List (Sample × List Entry)) : List (String × Level × String) := r.flatMap (fun p => p.2.flatMap extract)
def compactOutput (r : List (Sample × List Entry)) : List (String × Level × String) := r.flatMap compactSample

/-! ### C70 -/

theorem mcpCheck_spec {env : Env} {samples : List Sample} {r : List (Sample × List Entry)}
    (h : mcpCheck env samples = .ok r) :
    r.map Prod.fst = samples ∧ ∀ p ∈ r, ∃ st, runSample env { stats := none } p.1 = .ok st ∧ p.2 = st.entries := by
  induction samples generalizing r with
  | nil => cases h; exact ⟨rfl, by simp⟩
  | cons s l ih =>
    unfold mcpCheck at h
    cases hs : runSample env { stats := none } s with
    | error e => rw [hs] at h; cases h
    | ok st =>
      rw [hs] at h
      dsimp only at h
      cases hl : mcpCheck env l with
      | error e => rw [hl] at h; cases h
      | ok r' =>
        rw [hl] at h
        cases h
        obtain ⟨h1, h2⟩ := ih hl
        refine ⟨by simp [h1], ?_⟩
        intro p hp
        rcases List.mem_cons.1 hp with rfl | hp
        · exact ⟨st, hs, rfl⟩
        · exact h2 p hp

/-- The compact output lists only findings of the full one. -/
theorem compact_sound {env : Env} {samples : List Sample} {r : List (Sample × List Entry)}
    (_h : mcpCheck env samples = .ok r) : ∀ f ∈ compactOutput r, f ∈ fullOutput r := by
  intro f hf
  unfold compactOutput at hf
  unfold fullOutput
  rw [List.mem_flatMap] at hf ⊢
  obtain ⟨p, hp, hf⟩ := hf
  refine ⟨p, hp, ?_⟩
  unfold compactSample at hf
  rw [List.mem_flatMap] at hf ⊢
  obtain ⟨q, hq, hf⟩ := hf
  exact ⟨q.1, (List.of_mem_zip (List.mem_filter.1 hq).1).1, hf⟩

/-- A log whose event does not exist in the registry, and a data point without a required attribute: violations that the full
output shows and the compact one, which is to list just the findings, does not. -/
theorem compact_output_refuted :
    ¬ ∀ (r : Registry) (samples : List Sample) (out : List (Sample × List Entry)),
      mcpCheck (plainEnv r none) samples = .ok out →
      ∀ f ∈ fullOutput out, f.2.1 = .violation → f ∈ compactOutput out := by
  intro h
  have := h small [.log { eventName := "unknown" }] _ rfl
    ("missing_event", .violation, "Event 'unknown' does not exist in the registry.") (by decide) rfl
  exact absurd this (by decide)

/-- The attributes of data points are not looked at either. -/
theorem compact_points_refuted :
    ¬ ∀ (r : Registry) (samples : List Sample) (out : List (Sample × List Entry)),
      mcpCheck (plainEnv r none) samples = .ok out → (∀ s ∈ samples, ∀ l, s ≠ .log l) →
      ∀ f ∈ fullOutput out, f.2.1 = .violation → f ∈ compactOutput out := by
  intro h
  have := h small [.metric (Metric.mk "m" (.supported "counter") "s" (some (.number [{ attrs := [{ name := "nowhere" }] }]))
      none)] _ rfl
    (by intro s hs l e; simp at hs; subst hs; cases e)
    ("missing_attribute", .violation, "Attribute 'nowhere' does not exist in the registry.") (by decide) rfl
  exact absurd this (by decide)

/-- A sample of which the compact output forgets nothing. -/
def Simple : Sample → Prop
  | .log _ => False
  | .metric m => m.points = none
  | .span x => x.links = []
  | _ => True

/-- Kinds of samples about which the built-in advisors say nothing. -/
def Quiet : SRef → Prop
  | .spanEvent _ => True
  | .spanLink _ => True
  | .resource _ => True
  | .profile _ => True
  | _ => False

theorem quiet_advice {o : Occ} (h : Quiet o.ref) {rego : Advisor}
    (hq : ∀ s, Quiet s → ∀ signal a g, rego s signal a g = .ok []) : advice o (advisors rego) = .ok [] := by
  have hrego := hq o.ref h o.signal o.attr o.group
  unfold advisors
  cases hr : o.ref <;> rw [hr] at h hrego <;> first
    | exact h.elim
    | (simp [advice, hr, deprecatedAdvisor, stabilityAdvisor, typeAdvisor, enumAdvisor, hrego])

/-- What the compact output skips is quiet. -/
def Skips (o : Occ) (b : Bool) : Prop := b = true ∨ (Quiet o.ref ∧ o.first = [] ∧ o.last = [])

theorem skips_attrs (c : Checker) (g : Option Signal) (s : Sample) (l : List SAttr) :
    Forall2 Skips (l.map (attrOcc c g s)) (l.map (fun _ => true)) := by
  induction l with
  | nil => exact .nil
  | cons a l ih => exact .cons (Or.inl rfl) ih

theorem skips_flat {α : Type} {f : α → List Occ} {g : α → List Bool} (l : List α)
    (h : ∀ a ∈ l, Forall2 Skips (f a) (g a)) : Forall2 Skips (l.flatMap f) (l.flatMap g) := by
  induction l with
  | nil => exact .nil
  | cons a l ih =>
    rw [List.flatMap_cons, List.flatMap_cons]
    exact (h a (by simp)).append (ih (fun b hb => h b (by simp [hb])))

theorem simple_skips {env : Env} {s : Sample} (h : Simple s) : Forall2 Skips (occs env s) (compactMask s) := by
  cases s with
  | «attribute» a => exact .cons (Or.inl rfl) .nil
  | span x =>
    have hl : x.links = [] := h
    unfold occs compactMask
    dsimp only
    rw [hl]
    simp only [List.flatMap_nil, List.append_nil]
    refine Forall2.append (.cons (Or.inl rfl) (skips_attrs _ _ _ _)) (skips_flat _ ?_)
    intro e _
    exact .cons (Or.inr ⟨trivial, rfl, rfl⟩) (skips_attrs _ _ _ _)
  | spanEvent x => exact .cons (Or.inr ⟨trivial, rfl, rfl⟩) (skips_attrs _ _ _ _)
  | spanLink x => exact .cons (Or.inr ⟨trivial, rfl, rfl⟩) (skips_attrs _ _ _ _)
  | resource x => exact .cons (Or.inr ⟨trivial, rfl, rfl⟩) (skips_attrs _ _ _ _)
  | scope x => exact .cons (Or.inl rfl) (skips_attrs _ _ _ _)
  | profile x => exact .cons (Or.inr ⟨trivial, rfl, rfl⟩) (skips_attrs _ _ _ _)
  | metric m =>
    have hp : m.points = none := h
    unfold occs compactMask
    dsimp only
    rw [hp]
    exact .cons (Or.inl rfl) .nil
  | log l => exact h.elim

theorem zip_filter {es : List Entry} {bs : List Bool}
    (h : Forall2 (fun (e : Entry) b => b = true ∨ e.result.all = []) es bs) :
    ((es.zip bs).filter (fun q => q.2)).flatMap (fun q => extract q.1) = es.flatMap extract := by
  induction h with
  | nil => rfl
  | @cons e b es bs hr _ ih =>
    rw [List.zip_cons_cons, List.filter_cons, List.flatMap_cons]
    cases b with
    | true => simp only [if_true, List.flatMap_cons, ih]
    | false =>
      have : e.result.all = [] := by
        rcases hr with hr | hr
        · cases hr
        · exact hr
      simp only [Bool.false_eq_true, if_false, ih]
      unfold extract
      rw [this]
      rfl

theorem forall2_comp {α β γ : Type} {R : α → β → Prop} {S : α → γ → Prop} {T : β → γ → Prop} {l : List α} {m : List β}
    {n : List γ} (h : Forall2 R l m) (h' : Forall2 S l n) (ht : ∀ a b c, R a b → S a c → T b c) : Forall2 T m n := by
  induction h generalizing n with
  | nil => cases h'; exact .nil
  | cons hr _ ih =>
    cases h' with
    | cons hs t => exact .cons (ht _ _ _ hr hs) (ih t)

/-- With the built-in advisors, and policies that say nothing about span events, links, resources and profiles, the compact output lists every finding about attributes, scopes, resources, profiles, span
events and links by themselves, metrics without data points and spans without links, in order. Missing: findings about
logs, about data points and exemplars, about the attributes of a span's links, and findings of policies about span
events, links, resources and profiles. -/
theorem compact_complete_partial {env : Env}
    {rego : Advisor} (ha : env.advisors = advisors rego)
    (hq : ∀ s, Quiet s → ∀ signal a g, rego s signal a g = .ok []) {samples : List Sample}
    {r : List (Sample × List Entry)} (h : mcpCheck env samples = .ok r) (hs : ∀ s ∈ samples, Simple s) :
    compactOutput r = fullOutput r := by
  obtain ⟨h1, h2⟩ := mcpCheck_spec h
  unfold compactOutput fullOutput
  have hall : ∀ p ∈ r, compactSample p = p.2.flatMap extract := by
    intro p hp
    obtain ⟨st, hst, he⟩ := h2 p hp
    have hsimple := hs p.1 (h1 ▸ List.mem_map.2 ⟨p, hp, rfl⟩)
    obtain ⟨vs, hv, hent, -, -⟩ := runSample_ext hst
    unfold compactSample
    refine zip_filter ?_
    rw [he, hent]
    simp only [List.nil_append]
    have hv' : Forall2 (fun (o : Occ) (e : Entry) => Quiet o.ref ∧ o.first = [] ∧ o.last = [] → e.result.all = [])
        (occs env p.1) (vs.map (·.1)) := by
      clear hent he
      revert hv
      generalize occs env p.1 = os
      intro hv
      induction hv with
      | nil => exact .nil
      | @cons o v os vs hr _ ih =>
        refine .cons ?_ ih
        rintro ⟨q1, q2, q3⟩
        obtain ⟨-, -, ⟨gs, hg, hf⟩, hall, -⟩ := hr
        rw [ha, quiet_advice q1 hq] at hg
        cases hg
        rw [hall, hf, q2, q3]
        rfl
    refine forall2_comp hv' (simple_skips hsimple) ?_
    intro o e b h3 h4
    rcases h4 with h4 | h4
    · exact Or.inl h4
    · exact Or.inr (h3 h4)
  induction r with
  | nil => rfl
  | cons p r ih =>
    rw [List.flatMap_cons, List.flatMap_cons, hall p (by simp)]
    congr 1
    clear h h1 hs
    clear ih h2
    induction r with
    | nil => rfl
    | cons q r ih =>
      rw [List.flatMap_cons, List.flatMap_cons, hall q (by simp), ih]
      intro x hx
      rcases List.mem_cons.1 hx with rfl | hx
      · exact hall _ (by simp)
      · exact hall x (by simp [hx])

example : ∃ r, mcpCheck (plainEnv small none) [.attribute { name := "unknown" },
      .span { name := "s", events := [{ name := "e", attrs := [{ name := "nowhere" }] }] }] = .ok r ∧
    (compactOutput r).length = 2 := ⟨_, rfl, by decide⟩

end Verif.LiveCheck
