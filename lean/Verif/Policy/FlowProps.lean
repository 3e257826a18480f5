import Verif.Policy.Flow
import Verif.Policy.EngineProps
import Verif.Common.Props

/-!
# What `registry check` reports and when it fails
-/

namespace Verif.Policy
open Verif.Util

/-! ### Specification -/

/-- The policies that are in force: none if they are skipped, otherwise those of the registry, which can be loaded. -/
inductive InForce (cfg : Config) (repo : Repo) : Option Engine → Prop where
  | skipped : cfg.skip = true → InForce cfg repo none
  | loaded {e : Engine} : cfg.skip = false → repo.engine = some e → InForce cfg repo (some e)

/-- Loading, resolving and preparing the registry works, and gives this version and this form for templates. -/
inductive Ready (cfg : Config) (repo : Repo) : Bool → Val → Prop where
  | v1 {l n k t} : repo.load = some (l, n) → repo.resolve = some (.v1, k) → cfg.v2 = false → repo.template1 = some t → Ready cfg repo false t
  | converted {l n k t n'} : repo.load = some (l, n) → repo.resolve = some (.v1, k) → cfg.v2 = true → repo.toV2 = some (t, n') →
      Ready cfg repo true t
  | v2 {l n k t n'} : repo.load = some (l, n) → repo.resolve = some (.v2, k) → repo.template2 = some (t, n') → Ready cfg repo true t

/-- The messages of loading and resolving a registry. -/
inductive Said (env : Env) (cfg : Config) (repo : Repo) : Msg → Prop where
  | load {l n m} : repo.load = some (l, n) → m ∈ n → Said env cfg repo m
  | resolve {b k m} : repo.resolve = some (b, k) → m ∈ k → Said env cfg repo m
  | toV2 {k t n m} : repo.resolve = some (.v1, k) → cfg.v2 = true → repo.toV2 = some (t, n) → m ∈ n → Said env cfg repo m
  | template2 {k t n m} : repo.resolve = some (.v2, k) → repo.template2 = some (t, n) → m ∈ n → Said env cfg repo m
  | flagMissing {k} : repo.resolve = some (.v2, k) → cfg.v2 = false → Said env cfg repo (.other "V2FlagMissingWarning" (some .warning))
  | unsupported {e} : InForce cfg repo (some e) → cfg.v2 = true → ("data." ++ Stage.name .before) ∈ e.packages →
      Said env cfg repo (.other "BeforeResolutionUnsupported" (some .warning))
  | before {e files n file input d} : InForce cfg repo (some e) → cfg.v2 = false → repo.load = some (.unresolved files, n) →
      (file, input) ∈ files → d ∈ checkStage env.rego env.deep e .before file input [] → Said env cfg repo (.policy d)

/-- Every file is finished at some time. -/
def Fair (env : Env) : Prop := ∀ n i, i < n → i ∈ env.sched n

/-! ### One registry -/

theorem policyEngine_ok {cfg : Config} {repo : Repo} {o : Option Engine} : repo.policyEngine cfg = .ok o ↔ InForce cfg repo o := by
  unfold Repo.policyEngine
  cases hs : cfg.skip with
  | true =>
    simp only [if_true, Except.ok.injEq]
    constructor
    · rintro rfl; exact .skipped hs
    · intro h
      cases h with
      | skipped _ => rfl
      | loaded h _ => rw [hs] at h; cases h
  | false =>
    simp only [Bool.false_eq_true, if_false]
    cases he : repo.engine with
    | none =>
      constructor
      · intro h; cases h
      · intro h
        cases h with
        | skipped h => rw [hs] at h; cases h
        | loaded _ h => rw [he] at h; cases h
    | some e =>
      constructor
      · intro h; cases h; exact .loaded hs he
      · intro h
        cases h with
        | skipped h => rw [hs] at h; cases h
        | loaded _ h => rw [he] at h; cases h; rfl

theorem inForce_unique {cfg : Config} {repo : Repo} {o o' : Option Engine} (h : InForce cfg repo o) (h' : InForce cfg repo o') : o = o' := by
  have := policyEngine_ok.2 h
  rw [policyEngine_ok.2 h'] at this
  cases this; rfl

theorem ready_unique {cfg : Config} {repo : Repo} {a b : Bool} {t u : Val} (h : Ready cfg repo a t) (h' : Ready cfg repo b u) :
    a = b ∧ t = u := by
  cases h <;> cases h' <;> simp_all

theorem loadAndResolve_ok {env : Env} {cfg : Config} {repo : Repo} {diag : List Msg} {r : Resolved} :
    (repo.loadAndResolve env cfg diag).1 = .ok r ↔ Ready cfg repo r.isV2 r.template ∧ r.path = repo.path ∧ InForce cfg repo r.engine := by
  obtain ⟨rv, rt, rp, ro⟩ := r
  simp only
  unfold Repo.loadAndResolve
  cases he : repo.policyEngine cfg with
  | error m =>
    constructor
    · intro h; cases h
    · rintro ⟨-, -, h⟩; rw [policyEngine_ok.2 h] at he; cases he
  | ok o =>
    have ho := policyEngine_ok.1 he
    dsimp only
    unfold Repo.bundle
    dsimp only
    cases hl : repo.load with
    | none =>
      constructor
      · intro h; cases h
      · rintro ⟨h, -, -⟩; cases h <;> simp_all
    | some x =>
      obtain ⟨l, n⟩ := x
      dsimp only
      cases hr : repo.resolve with
      | none =>
        constructor
        · intro h; cases h
        · rintro ⟨h, -, -⟩; cases h <;> simp_all
      | some y =>
        obtain ⟨b, k⟩ := y
        dsimp only
        unfold Repo.finish
        cases b with
        | v1 =>
          dsimp only
          cases hv : cfg.v2 with
          | true =>
            simp only [if_true]
            cases ht : repo.toV2 with
            | none =>
              constructor
              · intro h; cases h
              · rintro ⟨h, -, -⟩; cases h <;> simp_all
            | some z =>
              obtain ⟨t, n'⟩ := z
              constructor
              · intro h; cases h; exact ⟨.converted hl hr hv ht, rfl, ho⟩
              · rintro ⟨h, h2, h3⟩
                obtain ⟨h4, h5⟩ := ready_unique h (.converted hl hr hv ht)
                have := inForce_unique h3 ho
                subst h4 h5 h2 this
                rfl
          | false =>
            simp only [Bool.false_eq_true, if_false]
            cases ht : repo.template1 with
            | none =>
              constructor
              · intro h; cases h
              · rintro ⟨h, -, -⟩; cases h <;> simp_all
            | some t =>
              constructor
              · intro h; cases h; exact ⟨.v1 hl hr hv ht, rfl, ho⟩
              · rintro ⟨h, h2, h3⟩
                obtain ⟨h4, h5⟩ := ready_unique h (.v1 hl hr hv ht)
                have := inForce_unique h3 ho
                subst h4 h5 h2 this
                rfl
        | v2 =>
          dsimp only
          cases ht : repo.template2 with
          | none =>
            constructor
            · intro h; cases h
            · rintro ⟨h, -, -⟩; cases h <;> simp_all
          | some z =>
            obtain ⟨t, n'⟩ := z
            constructor
            · intro h; cases h; exact ⟨.v2 hl hr ht, rfl, ho⟩
            · rintro ⟨h, h2, h3⟩
              obtain ⟨h4, h5⟩ := ready_unique h (.v2 hl hr ht)
              have := inForce_unique h3 ho
              subst h4 h5 h2 this
              rfl

/-- A failure of loading is one message, which declares no severity. -/
theorem loadAndResolve_error {env : Env} {cfg : Config} {repo : Repo} {diag : List Msg} {m : Msg}
    (h : (repo.loadAndResolve env cfg diag).1 = .error m) : ∃ t, m = fatal t := by
  unfold Repo.loadAndResolve at h
  have hp : ∀ x, repo.policyEngine cfg = .error x → ∃ t, x = fatal t := by
    intro x hx; unfold Repo.policyEngine at hx; split at hx
    · cases hx
    · split at hx
      · cases hx; exact ⟨_, rfl⟩
      · cases hx
  cases he : repo.policyEngine cfg with
  | error x => rw [he] at h; cases h; exact hp _ he
  | ok o =>
    rw [he] at h
    dsimp only at h
    unfold Repo.bundle at h
    dsimp only at h
    cases hl : repo.load with
    | none => rw [hl] at h; cases h; exact ⟨_, rfl⟩
    | some x =>
      obtain ⟨l, n⟩ := x
      rw [hl] at h
      dsimp only at h
      cases hr : repo.resolve with
      | none => rw [hr] at h; cases h; exact ⟨_, rfl⟩
      | some y =>
        obtain ⟨b, k⟩ := y
        rw [hr] at h
        dsimp only at h
        unfold Repo.finish at h
        cases b with
        | v1 =>
          dsimp only at h
          split at h
          · split at h
            · cases h; exact ⟨_, rfl⟩
            · cases h
          · split at h
            · cases h; exact ⟨_, rfl⟩
            · cases h
        | v2 =>
          dsimp only at h
          split at h
          · cases h; exact ⟨_, rfl⟩
          · cases h

theorem visit_mem {env : Env} (hf : Fair env) {e : Engine} {l : Loaded} {m : Msg} :
    m ∈ visit env e l ↔ ∃ files, l = .unresolved files ∧ ∃ file input d, (file, input) ∈ files ∧
      d ∈ checkStage env.rego env.deep e .before file input [] ∧ m = .policy d := by
  cases l with
  | resolved => simp [visit]
  | unresolved files =>
    unfold visit
    dsimp only
    rw [checkPolicy_schedule (hf files.length)]
    constructor
    · intro h
      obtain ⟨d, hd, rfl⟩ := List.mem_map.1 h
      obtain ⟨⟨a, b⟩, hx, hd⟩ := List.mem_flatMap.1 hd
      exact ⟨files, rfl, a, b, d, hx, hd, rfl⟩
    · rintro ⟨files', h, a, b, d, hx, hd, rfl⟩
      cases h
      exact List.mem_map.2 ⟨d, List.mem_flatMap.2 ⟨(a, b), hx, hd⟩, rfl⟩

theorem bundle_said {env : Env} {cfg : Config} {repo : Repo} {diag : List Msg} {o : Option Engine} {l : Loaded} {b : Bundle}
    {n k : List Msg} (hl : repo.load = some (l, n)) (hr : repo.resolve = some (b, k)) :
    ∃ d, repo.bundle env cfg o diag = (.ok b, d) ∧ ∀ m, m ∈ d ↔ m ∈ diag ∨
      (cfg.v2 = true ∧ ∃ e, o = some e ∧ ("data." ++ Stage.name .before) ∈ e.packages ∧
        m = .other "BeforeResolutionUnsupported" (some .warning)) ∨
      (cfg.v2 = false ∧ ∃ e, o = some e ∧ m ∈ visit env e l) ∨ m ∈ n ∨ m ∈ k := by
  unfold Repo.bundle
  rw [hl, hr]
  dsimp only
  refine ⟨_, rfl, fun m => ?_⟩
  cases hv : cfg.v2 with
  | true =>
    cases o with
    | none => simp
    | some e =>
      by_cases hh : ("data." ++ Stage.name .before) ∈ e.packages
      · have : e.hasStage .before = true := by unfold Engine.hasStage; simpa using hh
        simp only [this, if_true]
        simp [hh, or_assoc]
      · have : e.hasStage .before = false := by unfold Engine.hasStage; simpa using hh
        simp only [this, Bool.false_eq_true, if_false]
        simp [hh]
  | false =>
    cases o with
    | none => simp
    | some e => simp [or_assoc]

/-- The messages of a registry that can be loaded and resolved. -/
theorem loadAndResolve_said {env : Env} (hf : Fair env) {cfg : Config} {repo : Repo} {diag : List Msg} {r : Resolved}
    (h : (repo.loadAndResolve env cfg diag).1 = .ok r) (m : Msg) :
    m ∈ (repo.loadAndResolve env cfg diag).2 ↔ m ∈ diag ∨ Said env cfg repo m := by
  obtain ⟨hready, -, hforce⟩ := loadAndResolve_ok.1 h
  unfold Repo.loadAndResolve
  rw [policyEngine_ok.2 hforce]
  dsimp only
  have hforce' : ∀ {e}, InForce cfg repo (some e) → r.engine = some e := fun h => inForce_unique hforce h
  generalize r.engine = o at hforce hforce'
  generalize r.isV2 = rv at hready
  generalize r.template = rt at hready
  -- the messages until the schema is there
  have hb : ∀ {l : Loaded} {n : List Msg} {b : Bundle} {k : List Msg}, repo.load = some (l, n) → repo.resolve = some (b, k) → ∀ d : List Msg, (∀ m, m ∈ d ↔ m ∈ diag ∨
      (cfg.v2 = true ∧ ∃ e, o = some e ∧ ("data." ++ Stage.name .before) ∈ e.packages ∧
        m = .other "BeforeResolutionUnsupported" (some .warning)) ∨
      (cfg.v2 = false ∧ ∃ e, o = some e ∧ m ∈ visit env e l) ∨ m ∈ n ∨ m ∈ k) → ∀ m ∈ d, m ∈ diag ∨ Said env cfg repo m := by
    intro l n b k hl hr d hd m hm
    rcases (hd m).1 hm with h | ⟨hv, e, rfl, hs, rfl⟩ | ⟨hv, e, rfl, hm⟩ | h | h
    · exact .inl h
    · exact .inr (.unsupported hforce hv hs)
    · obtain ⟨files, rfl, file, input, d, hx, hd, rfl⟩ := (visit_mem hf).1 hm
      exact .inr (.before hforce hv hl hx hd)
    · exact .inr (.load hl h)
    · exact .inr (.resolve hr h)
  have hb' : ∀ {l : Loaded} {n : List Msg} {b : Bundle} {k : List Msg}, repo.load = some (l, n) → repo.resolve = some (b, k) → ∀ d : List Msg, (∀ m, m ∈ d ↔ m ∈ diag ∨
      (cfg.v2 = true ∧ ∃ e, o = some e ∧ ("data." ++ Stage.name .before) ∈ e.packages ∧
        m = .other "BeforeResolutionUnsupported" (some .warning)) ∨
      (cfg.v2 = false ∧ ∃ e, o = some e ∧ m ∈ visit env e l) ∨ m ∈ n ∨ m ∈ k) → ∀ m, Said env cfg repo m → m ∈ d ∨
      (∃ t n', b = .v1 ∧ cfg.v2 = true ∧ repo.toV2 = some (t, n') ∧ m ∈ n') ∨
      (∃ t n', b = .v2 ∧ repo.template2 = some (t, n') ∧ m ∈ n') ∨
      (b = .v2 ∧ cfg.v2 = false ∧ m = .other "V2FlagMissingWarning" (some .warning)) := by
    intro l n b k hl hr d hd m hm
    cases hm with
    | load h1 h2 => rw [hl] at h1; cases h1; exact .inl ((hd _).2 (.inr (.inr (.inr (.inl h2)))))
    | resolve h1 h2 => rw [hr] at h1; cases h1; exact .inl ((hd _).2 (.inr (.inr (.inr (.inr h2)))))
    | toV2 h1 h2 h3 h4 => rw [hr] at h1; cases h1; exact .inr (.inl ⟨_, _, rfl, h2, h3, h4⟩)
    | template2 h1 h2 h3 => rw [hr] at h1; cases h1; exact .inr (.inr (.inl ⟨_, _, rfl, h2, h3⟩))
    | flagMissing h1 h2 => rw [hr] at h1; cases h1; exact .inr (.inr (.inr ⟨rfl, h2, rfl⟩))
    | unsupported h1 h2 h3 => exact .inl ((hd _).2 (.inr (.inl ⟨h2, _, hforce' h1, h3, rfl⟩)))
    | before h1 h2 h3 h4 h5 =>
      rw [hl] at h3; cases h3
      exact .inl ((hd _).2 (.inr (.inr (.inl ⟨h2, _, hforce' h1, (visit_mem hf).2 ⟨_, rfl, _, _, _, h4, h5, rfl⟩⟩))))
  cases hready with
  | v1 hl hr hv ht =>
    obtain ⟨d, h1, h2⟩ := bundle_said (env := env) (cfg := cfg) (diag := diag) (o := o) hl hr
    rw [h1]
    dsimp only
    unfold Repo.finish
    simp only [hv, Bool.false_eq_true, if_false, ht]
    refine ⟨hb hl hr d h2 m, fun h => ?_⟩
    rcases h with h | h
    · exact (h2 m).2 (.inl h)
    · rcases hb' hl hr d h2 m h with h | ⟨_, _, _, h, _⟩ | ⟨_, _, h, _⟩ | ⟨h, _⟩
      · exact h
      · rw [hv] at h; cases h
      · cases h
      · cases h
  | converted hl hr hv ht =>
    obtain ⟨d, h1, h2⟩ := bundle_said (env := env) (cfg := cfg) (diag := diag) (o := o) hl hr
    rw [h1]
    dsimp only
    unfold Repo.finish
    simp only [hv, if_true, ht]
    rw [List.mem_append]
    constructor
    · rintro (h | h)
      · exact hb hl hr d h2 m h
      · exact .inr (.toV2 hr hv ht h)
    · rintro (h | h)
      · exact .inl ((h2 m).2 (.inl h))
      · rcases hb' hl hr d h2 m h with h | ⟨_, _, _, _, h, h'⟩ | ⟨_, _, h, _⟩ | ⟨h, _⟩
        · exact .inl h
        · rw [ht] at h; cases h; exact .inr h'
        · cases h
        · cases h
  | v2 hl hr ht =>
    obtain ⟨d, h1, h2⟩ := bundle_said (env := env) (cfg := cfg) (diag := diag) (o := o) hl hr
    rw [h1]
    dsimp only
    unfold Repo.finish
    simp only [ht]
    rw [List.mem_append]
    constructor
    · rintro (h | h)
      · cases hv : cfg.v2 with
        | true => rw [hv, if_pos rfl] at h; exact hb hl hr d h2 m h
        | false =>
          rw [hv, if_neg (by decide)] at h
          rcases List.mem_append.1 h with h | h
          · exact hb hl hr d h2 m h
          · rw [List.mem_singleton.1 h]
            exact .inr (.flagMissing hr hv)
      · exact .inr (.template2 hr ht h)
    · have hin : ∀ x ∈ d, x ∈ (if cfg.v2 = true then d else d ++ [Msg.other "V2FlagMissingWarning" (some .warning)]) := by
        intro x hx; split
        · exact hx
        · exact List.mem_append_left _ hx
      rintro (h | h)
      · exact .inl (hin _ ((h2 m).2 (.inl h)))
      · rcases hb' hl hr d h2 m h with h | ⟨_, _, h, _⟩ | ⟨_, _, _, h, h'⟩ | ⟨_, hv, rfl⟩
        · exact .inl (hin _ h)
        · cases h
        · rw [ht] at h; cases h; exact .inr h'
        · rw [hv]; simp

/-! ### The command -/

/-- The baseline, if there is one, can be loaded, and it has the same version. -/
inductive Comparable (cfg : Config) (isV2 : Bool) : Option (Option Repo) → Option Val → Prop where
  | none : Comparable cfg isV2 none none
  | some {repo t o} : Ready cfg repo isV2 t → InForce cfg repo o → Comparable cfg isV2 (some (some repo)) (some t)

/-- The messages of the policies after resolution. -/
inductive Judged (env : Env) (cfg : Config) (repo : Repo) (t : Val) (old : Option Val) : Msg → Prop where
  | after {e d} : InForce cfg repo (some e) → d ∈ checkStage env.rego env.deep e .after repo.path (some t) [] →
      Judged env cfg repo t old (.policy d)
  | comparison {e b d} : InForce cfg repo (some e) → old = some b →
      d ∈ checkStage env.rego env.deep e .comparison repo.path (some t) [b] → Judged env cfg repo t old (.policy d)

theorem loadBaseline_ok {env : Env} {cfg : Config} {baseline : Option (Option Repo)} {v : Bool} {old : Option Val} :
    Comparable cfg v baseline old ↔
      (∃ b, loadBaseline env cfg baseline = .ok b ∧ b.map Resolved.template = old ∧ ∀ x, b = some x → x.isV2 = v) := by
  constructor
  · intro h
    cases h with
    | none => exact ⟨none, rfl, rfl, fun _ h => by cases h⟩
    | @some repo t o h1 h2 =>
      have := loadAndResolve_ok (env := env) (diag := []) (r := ⟨v, t, repo.path, o⟩) |>.2 ⟨h1, rfl, h2⟩
      refine ⟨Option.some ⟨v, t, repo.path, o⟩, ?_, rfl, fun _ h => by cases h; rfl⟩
      unfold loadBaseline
      dsimp only
      rw [this]
  · rintro ⟨b, h1, rfl, h3⟩
    unfold loadBaseline at h1
    split at h1
    · cases h1; exact .none
    · cases h1
    · split at h1
      · cases h1
      · rename_i r hr
        cases h1
        obtain ⟨h4, -, h5⟩ := loadAndResolve_ok.1 hr
        rw [h3 r rfl] at h4
        exact .some h4 h5

theorem afterPolicy_mem {env : Env} {r : Resolved} {m : Msg} : m ∈ r.afterPolicy env ↔ ∃ e d, r.engine = some e ∧
    d ∈ checkStage env.rego env.deep e .after r.path (some r.template) [] ∧ m = .policy d := by
  unfold Resolved.afterPolicy
  cases r.engine with
  | none => simp
  | some e => simp [eq_comm]

theorem checkCommand_ok {env : Env} (hf : Fair env) {cfg : Config} {repo : Repo} {fetched : List Msg} {v : Bool} {t : Val}
    {o : Option Engine} {baseline : Option (Option Repo)} {old : Option Val}
    (hr : Ready cfg repo v t) (ho : InForce cfg repo o) (hb : Comparable cfg v baseline old) (m : Msg) :
    m ∈ checkCommand env cfg (some (repo, fetched)) baseline ↔
      m ∈ fetched ∨ Said env cfg repo m ∨ Judged env cfg repo t old m := by
  have hok := loadAndResolve_ok (env := env) (diag := fetched) (r := ⟨v, t, repo.path, o⟩) |>.2 ⟨hr, rfl, ho⟩
  obtain ⟨b, hb1, hb2, hb3⟩ := (loadBaseline_ok (env := env)).1 hb
  have hsaid := loadAndResolve_said hf hok
  unfold checkCommand
  dsimp only
  generalize hx : repo.loadAndResolve env cfg fetched = x at hok hsaid
  obtain ⟨x1, diag⟩ := x
  cases hok
  dsimp only
  rw [hb1]
  dsimp only
  have hafter : ∀ m, m ∈ (⟨v, t, repo.path, o⟩ : Resolved).afterPolicy env ↔ ∃ e d, InForce cfg repo (some e) ∧
      d ∈ checkStage env.rego env.deep e .after repo.path (some t) [] ∧ m = .policy d := by
    intro m
    rw [afterPolicy_mem]
    constructor
    · rintro ⟨e, d, h1, h2, h3⟩
      refine ⟨e, d, ?_, h2, h3⟩
      rw [← h1]; exact ho
    · rintro ⟨e, d, h1, h2, h3⟩
      exact ⟨e, d, inForce_unique ho h1, h2, h3⟩
  unfold afterResolution
  cases b with
  | none =>
    cases hb2
    dsimp only
    rw [List.mem_append, hsaid, hafter, or_assoc]
    constructor
    · rintro (h | h | ⟨e, d, h1, h2, rfl⟩)
      · exact .inl h
      · exact .inr (.inl h)
      · exact .inr (.inr (.after h1 h2))
    · rintro (h | h | h)
      · exact .inl h
      · exact .inr (.inl h)
      · cases h with
        | after h1 h2 => exact .inr (.inr ⟨_, _, h1, h2, rfl⟩)
        | comparison _ h _ => cases h
  | some b =>
    cases hb2
    dsimp only
    unfold Resolved.comparison
    rw [hb3 b rfl, if_pos rfl]
    cases o with
    | none =>
      dsimp only
      rw [List.mem_append, List.mem_append, hsaid, hafter]
      constructor
      · rintro (((h | h) | ⟨e, d, h1, h2, rfl⟩) | h)
        · exact .inl h
        · exact .inr (.inl h)
        · exact .inr (.inr (.after h1 h2))
        · cases h
      · rintro (h | h | h)
        · exact .inl (.inl (.inl h))
        · exact .inl (.inl (.inr h))
        · cases h with
          | after h1 h2 => exact .inl (.inr ⟨_, _, h1, h2, rfl⟩)
          | comparison h1 _ _ => cases inForce_unique ho h1
    | some e =>
      dsimp only
      rw [List.mem_append, List.mem_append, hsaid, hafter]
      constructor
      · rintro (((h | h) | ⟨e, d, h1, h2, rfl⟩) | h)
        · exact .inl h
        · exact .inr (.inl h)
        · exact .inr (.inr (.after h1 h2))
        · obtain ⟨d, hd, rfl⟩ := List.mem_map.1 h
          exact .inr (.inr (.comparison ho rfl hd))
      · rintro (h | h | h)
        · exact .inl (.inl (.inl h))
        · exact .inl (.inl (.inr h))
        · cases h with
          | after h1 h2 => exact .inl (.inr ⟨_, _, h1, h2, rfl⟩)
          | comparison h1 h2 h3 =>
            cases h2
            cases inForce_unique ho h1
            exact .inr (List.mem_map.2 ⟨_, h3, rfl⟩)

/-- A run that does not get to the end gives one message, which declares no severity. -/
theorem checkCommand_fatal {env : Env} {cfg : Config} {main : Option (Repo × List Msg)} {baseline : Option (Option Repo)}
    (h : ¬∃ repo fetched v t o old, main = some (repo, fetched) ∧ Ready cfg repo v t ∧ InForce cfg repo o ∧
      Comparable cfg v baseline old) : ∃ x, checkCommand env cfg main baseline = [fatal x] := by
  unfold checkCommand
  cases main with
  | none => exact ⟨_, rfl⟩
  | some y =>
    obtain ⟨repo, fetched⟩ := y
    dsimp only
    generalize hx : repo.loadAndResolve env cfg fetched = x
    obtain ⟨x1, diag⟩ := x
    cases x1 with
    | error m =>
      obtain ⟨t, rfl⟩ := loadAndResolve_error (env := env) (cfg := cfg) (repo := repo) (diag := fetched) (m := m) (by rw [hx])
      exact ⟨t, rfl⟩
    | ok r =>
      obtain ⟨h1, -, h3⟩ := loadAndResolve_ok (env := env) (cfg := cfg) (repo := repo) (diag := fetched) (r := r) |>.1 (by rw [hx])
      dsimp only
      cases hb : loadBaseline env cfg baseline with
      | error m =>
        unfold loadBaseline at hb
        split at hb
        · cases hb
        · cases hb; exact ⟨_, rfl⟩
        · split at hb
          · rename_i he
            cases hb
            obtain ⟨t, rfl⟩ := loadAndResolve_error he
            exact ⟨t, rfl⟩
          · cases hb
      | ok b =>
        have hne : ¬∀ x, b = some x → x.isV2 = r.isV2 := fun hall =>
          h ⟨repo, fetched, _, _, _, _, rfl, h1, h3, (loadBaseline_ok (env := env)).2 ⟨b, hb, rfl, hall⟩⟩
        cases b with
        | none => exact absurd (fun _ h => by cases h) hne
        | some b =>
          dsimp only
          unfold afterResolution Resolved.comparison
          dsimp only
          have : ¬(r.isV2 = b.isV2) := fun he => hne (fun x hx => by cases hx; exact he.symm)
          rw [if_neg this]
          exact ⟨_, rfl⟩

/-- C146. The messages of a run: either something cannot be done and there is one error for it; or all can be done and there
are the messages of fetching, loading and resolving and those of the policies, whatever the schedule. -/
theorem check_reports {env : Env} (hf : Fair env) (cfg : Config) (main : Option (Repo × List Msg)) (baseline : Option (Option Repo)) :
    (∃ repo fetched v t o old, main = some (repo, fetched) ∧ Ready cfg repo v t ∧ InForce cfg repo o ∧ Comparable cfg v baseline old ∧
      ∀ m, m ∈ checkCommand env cfg main baseline ↔ m ∈ fetched ∨ Said env cfg repo m ∨ Judged env cfg repo t old m) ∨
    ((¬∃ repo fetched v t o old, main = some (repo, fetched) ∧ Ready cfg repo v t ∧ InForce cfg repo o ∧ Comparable cfg v baseline old) ∧
      ∃ x, checkCommand env cfg main baseline = [.other x none]) := by
  rcases Classical.em (∃ repo fetched v t o old, main = some (repo, fetched) ∧ Ready cfg repo v t ∧ InForce cfg repo o ∧
      Comparable cfg v baseline old) with h | h
  · obtain ⟨repo, fetched, v, t, o, old, rfl, h1, h2, h3⟩ := h
    exact .inl ⟨repo, fetched, v, t, o, old, rfl, h1, h2, h3, checkCommand_ok hf h1 h2 h3⟩
  · exact .inr ⟨h, checkCommand_fatal h⟩

/-! ### The exit code -/

/-- A message that does not make the command fail: a warning or an advice. -/
def Mild : Msg → Prop
  | .policy _ => False
  | .other _ s => s = some .warning ∨ s = some .advice

theorem exitCode_one (future rendered : Bool) (ms : List Msg) : exitCode future rendered ms = 0 ∨ exitCode future rendered ms = 1 := by
  unfold exitCode; split
  · exact .inl rfl
  · split
    · exact .inr rfl
    · split
      · exact .inr rfl
      · exact .inl rfl

/-- The exit code of a list of messages is 0 if and only if there is none, or they can be shown, all are mild, and the future
mode is off. -/
theorem exitCode_zero (future rendered : Bool) (ms : List Msg) :
    exitCode future rendered ms = 0 ↔ ms = [] ∨ (rendered = true ∧ future = false ∧ ∀ m ∈ ms, Mild m) := by
  unfold exitCode
  by_cases hn : ms = []
  · simp [hn]
  · rw [if_neg hn]
    cases rendered with
    | false => simp [hn]
    | true =>
      simp only [Bool.true_eq_false, if_false, hn, false_or, true_and]
      rcases Classical.em (Common.hasError (ms.map fun m => ⟨.single 0 none, m.severity future⟩) = true) with he | he
      · rw [if_pos he]
        obtain ⟨x, hx, h1, h2⟩ := (Common.hasError_iff _).1 he
        obtain ⟨m, hm, rfl⟩ := List.mem_map.1 hx
        refine iff_of_false (by decide) ?_
        rintro ⟨rfl, hall⟩
        have := hall m hm
        cases m with
        | policy d => exact this
        | other t s => exact this.elim h1 h2
      · rw [if_neg he]
        refine iff_of_true rfl ?_
        have hall : ∀ m ∈ ms, m.severity future = some .warning ∨ m.severity future = some .advice := by
          intro m hm
          refine Classical.byContradiction fun hne => he ((Common.hasError_iff _).2 ⟨_, List.mem_map.2 ⟨m, hm, rfl⟩, ?_⟩)
          exact ⟨fun h => hne (.inl h), fun h => hne (.inr h)⟩
        obtain ⟨m, hm⟩ := List.exists_mem_of_ne_nil _ hn
        cases future with
        | true => rcases hall m hm with h | h <;> (simp [Msg.severity] at h)
        | false =>
          refine ⟨rfl, fun m hm => ?_⟩
          cases m with
          | policy d => rcases hall _ hm with h | h <;> (simp [Msg.severity] at h)
          | other t s => exact hall _ hm

/-- What a run without failure is: all could be done, and there is no message, or the messages can be shown, all of them are
mild, and the future mode is off. -/
theorem check_passes {env : Env} (hf : Fair env) (cfg : Config) (main : Option (Repo × List Msg)) (baseline : Option (Option Repo))
    (rendered : Bool) :
    exitCode env.future rendered (checkCommand env cfg main baseline) = 0 ↔
      ∃ repo fetched v t o old, main = some (repo, fetched) ∧ Ready cfg repo v t ∧ InForce cfg repo o ∧ Comparable cfg v baseline old ∧
        ((∀ m, ¬(m ∈ fetched ∨ Said env cfg repo m ∨ Judged env cfg repo t old m)) ∨
         (rendered = true ∧ env.future = false ∧ ∀ m, (m ∈ fetched ∨ Said env cfg repo m ∨ Judged env cfg repo t old m) → Mild m)) := by
  rw [exitCode_zero]
  rcases check_reports hf cfg main baseline with ⟨repo, fetched, v, t, o, old, rfl, h1, h2, h3, h4⟩ | ⟨hn, x, hx⟩
  · constructor
    · rintro (h | ⟨hr, hfut, h⟩)
      · refine ⟨repo, fetched, v, t, o, old, rfl, h1, h2, h3, .inl fun m hm => ?_⟩
        have := (h4 m).2 hm
        rw [h] at this; cases this
      · exact ⟨repo, fetched, v, t, o, old, rfl, h1, h2, h3, .inr ⟨hr, hfut, fun m hm => h m ((h4 m).2 hm)⟩⟩
    · rintro ⟨repo', fetched', v', t', o', old', he, h1', h2', h3', h⟩
      cases he
      have h4' := checkCommand_ok (fetched := fetched) hf h1' h2' h3'
      rcases h with h | ⟨hr, hfut, h⟩
      · exact .inl (List.eq_nil_iff_forall_not_mem.2 fun m hm => h m ((h4' m).1 hm))
      · exact .inr ⟨hr, hfut, fun m hm => h m ((h4' m).1 hm)⟩
  · rw [hx]
    constructor
    · rintro (h | ⟨-, -, h⟩)
      · cases h
      · rcases h _ (List.mem_singleton.2 rfl) with h | h <;> cases h
    · rintro ⟨repo, fetched, v, t, o, old, h1, h2, h3, h4, -⟩
      exact absurd ⟨repo, fetched, v, t, o, old, h1, h2, h3, h4⟩ hn

theorem policy_fails {env : Env} (hf : Fair env) {cfg : Config} {repo : Repo} {fetched : List Msg} {baseline : Option (Option Repo)}
    {rendered : Bool} (h : ∀ v t o old, Ready cfg repo v t → InForce cfg repo o → Comparable cfg v baseline old →
      ∃ d, Said env cfg repo (.policy d) ∨ Judged env cfg repo t old (.policy d)) :
    exitCode env.future rendered (checkCommand env cfg (some (repo, fetched)) baseline) = 1 := by
  rcases exitCode_one env.future rendered (checkCommand env cfg (some (repo, fetched)) baseline) with h0 | h1
  · obtain ⟨repo', fetched', v, t, o, old, he, hr, ho, hc, hm⟩ := (check_passes hf cfg _ baseline rendered).1 h0
    cases he
    obtain ⟨d, hd⟩ := h v t o old hr ho hc
    rcases hm with hm | ⟨-, -, hm⟩
    · exact absurd (.inr hd) (hm (.policy d))
    · exact absurd (hm (.policy d) (.inr hd)) (fun h => h)
  · exact h1

theorem checkStage_violation {r : Rego} {deep : Bool} {e : Engine} {s : Stage} {file : String} {input : Val} {fs : List Finding}
    {f : Finding} (h : e.check r input s = .ok fs) (hf : f ∈ fs) :
    .violation file f ∈ checkStage r deep e s file (some input) [] := by
  rcases checkStage_report r deep e s file input with ⟨fs', h1, h2⟩ | ⟨h1, -⟩
  · rw [h] at h1; cases h1; rw [h2]; exact List.mem_map.2 ⟨f, hf, rfl⟩
  · exact absurd h (h1 fs)

/-- C147. A finding for a definition file makes the command fail, whatever else happens. -/
theorem before_fails {env : Env} (hf : Fair env) {cfg : Config} {repo : Repo} {fetched : List Msg} {baseline : Option (Option Repo)}
    {rendered : Bool} {e : Engine} {files : List (String × Option Val)} {n : List Msg} {file : String} {input : Val} {fs : List Finding}
    (hskip : cfg.skip = false) (hv : cfg.v2 = false) (he : repo.engine = some e) (hl : repo.load = some (.unresolved files, n))
    (hx : (file, some input) ∈ files) (hc : e.check env.rego input .before = .ok fs) (hne : fs ≠ []) :
    exitCode env.future rendered (checkCommand env cfg (some (repo, fetched)) baseline) = 1 := by
  obtain ⟨f, hfs⟩ := List.exists_mem_of_ne_nil _ hne
  exact policy_fails hf fun v t o old _ _ _ =>
    ⟨_, .inl (.before (.loaded hskip he) hv hl hx (checkStage_violation hc hfs))⟩

/-- C147. A finding for the resolved registry makes the command fail, whatever else happens. -/
theorem after_fails {env : Env} (hf : Fair env) {cfg : Config} {repo : Repo} {fetched : List Msg} {baseline : Option (Option Repo)}
    {rendered : Bool} {e : Engine} {v : Bool} {t : Val} {fs : List Finding}
    (hskip : cfg.skip = false) (he : repo.engine = some e) (hr : Ready cfg repo v t)
    (hc : e.check env.rego t .after = .ok fs) (hne : fs ≠ []) :
    exitCode env.future rendered (checkCommand env cfg (some (repo, fetched)) baseline) = 1 := by
  obtain ⟨f, hfs⟩ := List.exists_mem_of_ne_nil _ hne
  refine policy_fails hf fun v' t' o old hr' _ _ => ⟨.violation repo.path f, .inr (.after (.loaded hskip he) ?_)⟩
  obtain ⟨-, rfl⟩ := ready_unique hr hr'
  exact checkStage_violation hc hfs

/-- C147. A finding for the resolved registry and its baseline makes the command fail, whatever else happens. The policy sees
the registry as its input and the baseline among its data. -/
theorem comparison_fails {env : Env} (hf : Fair env) {cfg : Config} {repo old : Repo} {fetched : List Msg}
    {rendered : Bool} {e : Engine} {v : Bool} {t b : Val} {data : Val} {fs : List Finding}
    (hskip : cfg.skip = false) (he : repo.engine = some e) (hr : Ready cfg repo v t) (hb : Ready cfg old v b)
    (hd : addData env.deep e.data b = some data)
    (hc : ({ e with data := data } : Engine).check env.rego t .comparison = .ok fs) (hne : fs ≠ []) :
    exitCode env.future rendered (checkCommand env cfg (some (repo, fetched)) (some (some old))) = 1 := by
  obtain ⟨f, hfs⟩ := List.exists_mem_of_ne_nil _ hne
  refine policy_fails hf fun v' t' o old' hr' _ hcmp => ?_
  obtain ⟨rfl, rfl⟩ := ready_unique hr hr'
  cases hcmp with
  | some h1 h2 =>
    obtain ⟨-, rfl⟩ := ready_unique hb h1
    refine ⟨.violation repo.path f, .inr (.comparison (.loaded hskip he) rfl ?_)⟩
    unfold checkStage addDocuments addDocuments
    rw [hd]
    dsimp only [List.nil_append]
    rw [hc]
    exact List.mem_map.2 ⟨f, hfs, rfl⟩

/-! ### A registry, its baseline and its policies -/

/-- A library in which a rule finds something if the input is not the atom it is named after. -/
def exRego : Rego where
  package t := if t = "x" then none else some ("data." ++ t)
  eval modules _ input rule :=
    if rule = "data.before_resolution.deny" ∧ "before_resolution" ∈ modules ∧ input = .atom "bad" then
      some (.arr [.obj [("id", .str "b"), ("level", .str "information"), ("message", .str "m")]])
    else if rule = "data.comparison_after_resolution.deny" ∧ input = .atom "removed" then
      some (.arr [.obj [("id", .str "c"), ("level", .str "violation"), ("message", .str "m")]])
    else some (.arr [])

def exEngine : Engine where
  modules := ["before_resolution", "comparison_after_resolution"]
  packages := ["data.comparison_after_resolution", "data.before_resolution"]

def exEnv : Env where
  rego := exRego
  deep := true
  sched n := (List.range n).reverse
  future := false

theorem exEnv_fair : Fair exEnv := by
  intro n i hi
  simp [exEnv, hi]

def exRepo : Repo where
  path := "registry"
  engine := some exEngine
  load := some (.unresolved [("a.yaml", some (.atom "good")), ("b.yaml", some (.atom "bad"))], [.other "dup" (some .warning)])
  resolve := some (.v1, [])
  template1 := some (.atom "fine")
  toV2 := some (.atom "fine", [])
  template2 := none

def exInfo : Finding := ⟨"b", none, "m", .information, none, none⟩

/-- The finding for `b.yaml`, and the warning. -/
example : checkCommand exEnv ⟨false, false⟩ (some (exRepo, [])) none =
    [.policy (.violation "b.yaml" exInfo), .other "dup" (some .warning)] := by rfl

example : exitCode false true (checkCommand exEnv ⟨false, false⟩ (some (exRepo, [])) none) = 1 :=
  before_fails exEnv_fair (repo := exRepo) (e := exEngine) (file := "b.yaml") (input := .atom "bad") (fs := [exInfo])
    rfl rfl rfl rfl (by simp) rfl (by simp)

/-- Without policies only the warning is left. -/
example : exitCode false true (checkCommand exEnv ⟨false, true⟩ (some (exRepo, [])) none) = 0 := by rfl

/-- A registry that its baseline does not fit. -/
example : exitCode false true (checkCommand exEnv ⟨false, false⟩
    (some ({ exRepo with template1 := some (.atom "removed"), load := some (.resolved, []) }, [])) (some (some { exRepo with template1 := some (.obj []) }))) = 1 :=
  comparison_fails exEnv_fair (old := { exRepo with template1 := some (.obj []) }) (e := exEngine) (v := false) (t := .atom "removed") (b := .obj [])
    (data := .obj []) (fs := [⟨"c", none, "m", .violation, none, none⟩]) rfl rfl (.v1 rfl rfl rfl rfl) (.v1 rfl rfl rfl rfl)
    (by rfl) (by rfl) (by simp)

/-- A registry of another version than its baseline. -/
example : checkCommand exEnv ⟨false, false⟩ (some (exRepo, [])) (some (some { exRepo with resolve := some (.v2, []), template2 := some (.obj [], []) })) =
    [fatal "IncompatibleRegistries"] := by rfl

/-! ### What does not hold -/

/-- C148. The full claim: each finding for a definition file is among the messages. -/
def FindingsReported : Prop :=
  ∀ (env : Env), Fair env → ∀ (cfg : Config) (repo : Repo) (fetched : List Msg) (baseline : Option (Option Repo)) (e : Engine)
    (files : List (String × Option Val)) (n : List Msg) (file : String) (input : Val) (fs : List Finding) (f : Finding),
    cfg.skip = false → cfg.v2 = false → repo.engine = some e → repo.load = some (.unresolved files, n) →
    (file, some input) ∈ files → e.check env.rego input .before = .ok fs → f ∈ fs →
    .policy (.violation file f) ∈ checkCommand env cfg (some (repo, fetched)) baseline

/-- It is false: if the registry cannot be resolved then only this is reported. -/
theorem findings_reported_refuted : ¬FindingsReported := by
  intro h
  have := h exEnv exEnv_fair ⟨false, false⟩ { exRepo with resolve := none } [] none exEngine _ _ "b.yaml" (.atom "bad") [exInfo] exInfo
    rfl rfl rfl rfl (by simp) rfl (by simp)
  have hx : checkCommand exEnv ⟨false, false⟩ (some ({ exRepo with resolve := none }, [])) none = [fatal "resolve"] := rfl
  rw [hx] at this
  cases List.mem_singleton.1 this

/-- What is left: it is reported if the run gets to its end. Missing: the runs that do not; `before_fails` says that these fail
too. -/
theorem findings_reported_partial {env : Env} (hf : Fair env) {cfg : Config} {repo : Repo} {fetched : List Msg}
    {baseline : Option (Option Repo)} {e : Engine} {files : List (String × Option Val)} {n : List Msg} {file : String} {input : Val}
    {fs : List Finding} {f : Finding} {v : Bool} {t : Val} {old : Option Val}
    (hskip : cfg.skip = false) (hv : cfg.v2 = false) (he : repo.engine = some e) (hl : repo.load = some (.unresolved files, n))
    (hx : (file, some input) ∈ files) (hc : e.check env.rego input .before = .ok fs) (hfs : f ∈ fs)
    (hr : Ready cfg repo v t) (hb : Comparable cfg v baseline old) :
    .policy (.violation file f) ∈ checkCommand env cfg (some (repo, fetched)) baseline :=
  (checkCommand_ok hf hr (.loaded hskip he) hb _).2
    (.inr (.inl (.before (.loaded hskip he) hv hl hx (checkStage_violation hc hfs))))

example : Ready ⟨false, false⟩ exRepo false (.atom "fine") ∧ Comparable ⟨false, false⟩ false none none :=
  ⟨.v1 rfl rfl rfl rfl, .none⟩

/-- C149. The full claim: findings that are no violations do not make the command fail. -/
def InformationPasses : Prop :=
  ∀ (env : Env), Fair env → env.future = false → ∀ (cfg : Config) (repo : Repo) (v : Bool) (t : Val) (o : Option Engine),
    Ready cfg repo v t → InForce cfg repo o →
    (∀ m, (Said env cfg repo m ∨ Judged env cfg repo t none m) → Mild m ∨ ∃ file f, m = .policy (.violation file f) ∧ f.level ≠ .violation) →
    exitCode env.future true (checkCommand env cfg (some (repo, [])) none) = 0

/-- It is false: every finding makes the command fail, whatever its level. -/
theorem information_passes_refuted : ¬InformationPasses := by
  intro h
  have := h exEnv exEnv_fair rfl ⟨false, false⟩ exRepo false (.atom "fine") (some exEngine) (.v1 rfl rfl rfl rfl) (.loaded rfl rfl) (by
    intro m hm
    have := (checkCommand_ok (fetched := []) exEnv_fair (.v1 rfl rfl rfl rfl : Ready ⟨false, false⟩ exRepo false (.atom "fine"))
      (.loaded rfl rfl : InForce ⟨false, false⟩ exRepo (some exEngine)) .none m).2 (.inr hm)
    have hx : checkCommand exEnv ⟨false, false⟩ (some (exRepo, [])) none =
      [.policy (.violation "b.yaml" exInfo), .other "dup" (some .warning)] := rfl
    rw [hx] at this
    simp only [List.mem_cons, List.not_mem_nil, or_false] at this
    rcases this with rfl | rfl
    · exact .inr ⟨_, _, rfl, by simp [exInfo]⟩
    · exact .inl (.inl rfl))
  have hx : exitCode exEnv.future true (checkCommand exEnv ⟨false, false⟩ (some (exRepo, [])) none) = 1 := rfl
  rw [hx] at this
  cases this

/-- What is left: without findings, a run with mild messages only passes. Missing: the findings that are no violations. -/
theorem information_passes_partial {env : Env} (hf : Fair env) (hfut : env.future = false) {cfg : Config} {repo : Repo} {v : Bool}
    {t : Val} {o : Option Engine} (hr : Ready cfg repo v t) (ho : InForce cfg repo o)
    (h : ∀ m, (Said env cfg repo m ∨ Judged env cfg repo t none m) → Mild m) :
    exitCode env.future true (checkCommand env cfg (some (repo, [])) none) = 0 :=
  (check_passes hf cfg _ none true).2 ⟨repo, [], v, t, o, none, rfl, hr, ho, .none, .inr ⟨rfl, hfut, fun m hm => by
    rcases hm with hm | hm
    · cases hm
    · exact h m hm⟩⟩

/-- C150. The full claim: if policies for definition files are not applied then there is a message. -/
def SkippedWarned : Prop :=
  ∀ (env : Env), Fair env → ∀ (cfg : Config) (repo : Repo) (e : Engine) (v : Bool) (t : Val),
    cfg.skip = false → repo.engine = some e → ("data." ++ Stage.name .before) ∈ e.packages → Ready cfg repo v t →
    (cfg.v2 = true ∨ ∃ n, repo.load = some (.resolved, n)) →
    .other "BeforeResolutionUnsupported" (some .warning) ∈ checkCommand env cfg (some (repo, [])) none

/-- It is false: for a registry that is already resolved there is none. -/
theorem skipped_warned_refuted : ¬SkippedWarned := by
  intro h
  have := h exEnv exEnv_fair ⟨false, false⟩ { exRepo with load := some (.resolved, []) } exEngine false (.atom "fine")
    rfl rfl (by decide) (.v1 rfl rfl rfl rfl) (.inr ⟨_, rfl⟩)
  have hx : checkCommand exEnv ⟨false, false⟩ (some ({ exRepo with load := some (.resolved, []) }, [])) none = [] := rfl
  rw [hx] at this
  cases this

/-- What is left: with the option `--v2` there is one. Missing: registries that are already resolved. -/
theorem skipped_warned_partial {env : Env} (hf : Fair env) {cfg : Config} {repo : Repo} {fetched : List Msg} {e : Engine} {v : Bool}
    {t : Val} {baseline : Option (Option Repo)} {old : Option Val} (hskip : cfg.skip = false) (hv : cfg.v2 = true)
    (he : repo.engine = some e) (hs : ("data." ++ Stage.name .before) ∈ e.packages) (hr : Ready cfg repo v t)
    (hb : Comparable cfg v baseline old) :
    .other "BeforeResolutionUnsupported" (some .warning) ∈ checkCommand env cfg (some (repo, fetched)) baseline :=
  (checkCommand_ok hf hr (.loaded hskip he) hb _).2 (.inr (.inl (.unsupported (.loaded hskip he) hv hs)))

example : ("data." ++ Stage.name .before) ∈ exEngine.packages ∧ Ready ⟨true, false⟩ exRepo true (.atom "fine") :=
  ⟨by decide, .converted rfl rfl rfl rfl⟩

end Verif.Policy
