import Verif.Commands.Model
import Verif.Policy.FlowProps
import Verif.Schema.ManifestProps

/-!
# What the commands report, write and return
-/

namespace Verif.Commands
open Verif.Util Verif.Policy

/-! ### Specification -/

/-- The registry can be fetched, loaded and prepared: `t` is its form for templates. -/
def Complete (cfg : Config) (main : Option (Repo × List Msg)) (repo : Repo) (fetched : List Msg) (v : Bool) (t : Val) : Prop :=
  main = some (repo, fetched) ∧ Ready cfg repo v t ∧ ∃ o, InForce cfg repo o

/-- The messages about a registry: of fetching it, of loading and resolving it, and, with `after`, of the policies for the
resolved registry. -/
inductive Finds (env : Env) (cfg : Config) (repo : Repo) (fetched : List Msg) (t : Val) (after : Bool) : Msg → Prop where
  | fetched {m} : m ∈ fetched → Finds env cfg repo fetched t after m
  | said {m} : Said env cfg repo m → Finds env cfg repo fetched t after m
  | judged {m} : after = true → Judged env cfg repo t none m → Finds env cfg repo fetched t after m

/-- A message that is an error: in the future mode all are, otherwise those that are not warnings or advices. -/
def IsError (future : Bool) (m : Msg) : Prop := future = true ∨ ¬Mild m

/-! ### Lemmas -/

theorem bad_iff (future : Bool) (ms : List Msg) : bad future ms = true ↔ ∃ m ∈ ms, IsError future m := by
  unfold bad
  rw [Common.hasError_iff]
  constructor
  · rintro ⟨x, hx, h1, h2⟩
    obtain ⟨m, hm, rfl⟩ := List.mem_map.1 hx
    refine ⟨m, hm, ?_⟩
    cases hf : future with
    | true => exact .inl rfl
    | false =>
      rw [hf] at h1 h2
      refine .inr fun h => ?_
      cases m with
      | policy d => exact h
      | other t s => rcases h with h | h <;> simp_all [Msg.severity]
  · rintro ⟨m, hm, h⟩
    refine ⟨_, List.mem_map.2 ⟨m, hm, rfl⟩, ?_⟩
    rcases h with rfl | h
    · simp [Msg.severity]
    · cases future with
      | true => simp [Msg.severity]
      | false =>
        cases m with
        | policy d => simp [Msg.severity]
        | other t s =>
          simp only [Msg.severity, Bool.false_eq_true, if_false]
          exact ⟨fun hs => h (.inl hs), fun hs => h (.inr hs)⟩

theorem not_bad {future : Bool} {ms : List Msg} (h : bad future ms = false) {m : Msg} (hm : m ∈ ms) : ¬IsError future m := by
  intro he
  rw [(bad_iff future ms).2 ⟨m, hm, he⟩] at h
  cases h

theorem fatal_bad (future : Bool) (x : String) (ms : List Msg) : bad future (fatal x :: ms) = true :=
  (bad_iff _ _).2 ⟨_, List.mem_cons_self, .inr fun h => by rcases h with h | h <;> cases h⟩

/-- An error as the only or first message gives the exit code 1. -/
theorem process_fatal (future rendered : Bool) (x : String) (ms : List Msg) : (process future rendered (.error (fatal x :: ms))).1 = 1 := by
  unfold process
  cases rendered with
  | false => rfl
  | true => simp [fatal_bad]

theorem process_error_zero {future rendered : Bool} {ms : List Msg} (h : (process future rendered (.error ms)).1 = 0) :
    rendered = true ∧ ∀ m ∈ ms, ¬IsError future m := by
  unfold process at h
  cases rendered with
  | false => simp at h
  | true =>
    refine ⟨rfl, fun m hm he => ?_⟩
    simp [(bad_iff future ms).2 ⟨m, hm, he⟩] at h

theorem loadMain_error {env : Env} {cfg : Config} {main : Option (Repo × List Msg)} {m : Msg} (h : loadMain env cfg main = .error m) :
    (∃ x, m = fatal x) ∧ ¬∃ repo fetched v t, Complete cfg main repo fetched v t := by
  unfold loadMain at h
  cases main with
  | none =>
    cases h
    refine ⟨⟨_, rfl⟩, ?_⟩
    rintro ⟨_, _, _, _, h, -⟩
    cases h
  | some x =>
    obtain ⟨repo, fetched⟩ := x
    dsimp only at h
    generalize hx : repo.loadAndResolve env cfg fetched = x at h
    obtain ⟨x1, d⟩ := x
    cases x1 with
    | ok r => cases h
    | error e =>
      cases h
      have h1 : (repo.loadAndResolve env cfg fetched).1 = .error m := by rw [hx]
      refine ⟨loadAndResolve_error h1, ?_⟩
      rintro ⟨repo', fetched', v, t, he, hr, o, ho⟩
      cases he
      have := loadAndResolve_ok (env := env) (diag := fetched) (r := ⟨v, t, repo.path, o⟩) |>.2 ⟨hr, rfl, ho⟩
      rw [h1] at this
      cases this

theorem loadMain_ok {env : Env} (hf : Fair env) {cfg : Config} {main : Option (Repo × List Msg)} {r : Resolved} {diag : List Msg}
    (h : loadMain env cfg main = .ok (r, diag)) : ∃ repo fetched, Complete cfg main repo fetched r.isV2 r.template ∧
      r.path = repo.path ∧ InForce cfg repo r.engine ∧ (∀ m, m ∈ diag ↔ Finds env cfg repo fetched r.template false m) ∧
      ∀ m, m ∈ diag ++ r.afterPolicy env ↔ Finds env cfg repo fetched r.template true m := by
  unfold loadMain at h
  cases main with
  | none => cases h
  | some x =>
    obtain ⟨repo, fetched⟩ := x
    dsimp only at h
    generalize hx : repo.loadAndResolve env cfg fetched = x at h
    obtain ⟨x1, d⟩ := x
    cases x1 with
    | error e => cases h
    | ok r' =>
      cases h
      have h1 : (repo.loadAndResolve env cfg fetched).1 = .ok r := by rw [hx]
      obtain ⟨hr, hp, ho⟩ := loadAndResolve_ok.1 h1
      have hs := loadAndResolve_said hf h1
      rw [hx] at hs
      refine ⟨repo, fetched, ⟨rfl, hr, _, ho⟩, hp, ho, fun m => ?_, fun m => ?_⟩
      · rw [hs]
        constructor
        · rintro (h | h)
          · exact .fetched h
          · exact .said h
        · intro h
          cases h with
          | fetched h => exact .inl h
          | said h => exact .inr h
          | judged h _ => cases h
      · rw [List.mem_append, hs, afterPolicy_mem]
        constructor
        · rintro ((h | h) | ⟨e, d, h2, h3, rfl⟩)
          · exact .fetched h
          · exact .said h
          · refine .judged rfl (.after (e := e) ?_ (by rw [← hp]; exact h3))
            rw [← h2]; exact ho
        · intro h
          cases h with
          | fetched h => exact .inl (.inl h)
          | said h => exact .inl (.inr h)
          | judged _ h =>
            cases h with
            | after h1 h2 => exact .inr ⟨_, _, inForce_unique ho h1, by rw [hp]; exact h2, rfl⟩
            | comparison _ h _ => cases h

theorem complete_unique {cfg : Config} {main : Option (Repo × List Msg)} {repo repo' : Repo} {f f' : List Msg} {v v' : Bool} {t t' : Val}
    (h : Complete cfg main repo f v t) (h' : Complete cfg main repo' f' v' t') : repo = repo' ∧ f = f' ∧ v = v' ∧ t = t' := by
  obtain ⟨rfl, h1, -⟩ := h
  obtain ⟨he, h2, -⟩ := h'
  cases he
  obtain ⟨rfl, rfl⟩ := ready_unique h1 h2
  exact ⟨rfl, rfl, rfl, rfl⟩

/-- Loading, as one step: it fails, or it is complete and gives the messages. -/
theorem loadMain_cases {env : Env} (hf : Fair env) (cfg : Config) (main : Option (Repo × List Msg)) :
    (∃ x, loadMain env cfg main = .error (fatal x) ∧ ¬∃ repo fetched v t, Complete cfg main repo fetched v t) ∨
    (∃ r diag repo fetched, loadMain env cfg main = .ok (r, diag) ∧ Complete cfg main repo fetched r.isV2 r.template ∧
      (∀ m, m ∈ diag ↔ Finds env cfg repo fetched r.template false m) ∧
      ∀ m, m ∈ diag ++ r.afterPolicy env ↔ Finds env cfg repo fetched r.template true m) := by
  cases h : loadMain env cfg main with
  | error m =>
    obtain ⟨⟨x, rfl⟩, hn⟩ := loadMain_error h
    exact .inl ⟨x, rfl, hn⟩
  | ok p =>
    obtain ⟨r, diag⟩ := p
    obtain ⟨repo, fetched, h1, -, -, h2, h3⟩ := loadMain_ok hf h
    exact .inr ⟨r, diag, repo, fetched, rfl, h1, h2, h3⟩

/-! ### C231: the exit code -/

/-- The exit code of `registry generate` is 0 exactly if the registry is complete, the output could be made, and there is no
message, or the messages are all mild, can be shown, and the future mode is off. -/
theorem generate_passes {env : Env} (hf : Fair env) (cfg : Config) (main : Option (Repo × List Msg)) (out : Output) (rendered : Bool) :
    (process env.future rendered (generate env cfg main out).2).1 = 0 ↔
      ∃ repo fetched v t, Complete cfg main repo fetched v t ∧ out.prepare = none ∧ (out.run t).2 = none ∧
        ((∀ m, ¬Finds env cfg repo fetched t true m) ∨
         (rendered = true ∧ ∀ m, Finds env cfg repo fetched t true m → ¬IsError env.future m)) := by
  unfold generate
  rcases loadMain_cases hf cfg main with ⟨x, h, hn⟩ | ⟨r, diag, repo, fetched, h, hc, -, hm⟩
  · rw [h]
    dsimp only
    rw [process_fatal]
    refine iff_of_false (by decide) ?_
    rintro ⟨repo, fetched, v, t, h, -⟩
    exact hn ⟨_, _, _, _, h⟩
  · rw [h]
    dsimp only
    have hiff : (∃ repo fetched v t, Complete cfg main repo fetched v t ∧ out.prepare = none ∧ (out.run t).2 = none ∧
        ((∀ m, ¬Finds env cfg repo fetched t true m) ∨
         (rendered = true ∧ ∀ m, Finds env cfg repo fetched t true m → ¬IsError env.future m))) ↔
        (out.prepare = none ∧ (out.run r.template).2 = none ∧
        ((∀ m, m ∉ diag ++ r.afterPolicy env) ∨ (rendered = true ∧ ∀ m ∈ diag ++ r.afterPolicy env, ¬IsError env.future m))) := by
      simp only [hm]
      constructor
      · rintro ⟨repo', fetched', v, t, h1, h2⟩
        obtain ⟨rfl, rfl, rfl, rfl⟩ := complete_unique hc h1
        exact h2
      · intro h2; exact ⟨_, _, _, _, hc, h2⟩
    rw [hiff]
    cases hp : out.prepare with
    | some e => simp [process_fatal]
    | none =>
      dsimp only
      unfold generateAll
      generalize hr : out.run r.template = w
      obtain ⟨acts, e⟩ := w
      cases e with
      | some e => simp [process_fatal]
      | none =>
        dsimp only
        generalize diag ++ r.afterPolicy env = ms
        by_cases hne : ms = []
        · subst hne; simp [process]
        · rw [if_pos hne]
          have hex := List.exists_mem_of_ne_nil _ hne
          simp only [true_and]
          constructor
          · intro hz; exact .inr (process_error_zero hz)
          · rintro (h0 | ⟨rfl, h0⟩)
            · obtain ⟨m, hm⟩ := hex
              exact absurd hm (h0 m)
            · unfold process
              have : bad env.future ms = false := by
                cases hb : bad env.future ms with
                | false => rfl
                | true =>
                  obtain ⟨m, hm, he⟩ := (bad_iff _ _).1 hb
                  exact absurd he (h0 m hm)
              simp [this]

theorem resolve_eq (env : Env) (cfg : Config) (main : Option (Repo × List Msg)) (out : Output) :
    resolve env cfg main out = if env.future then ([], .error [fatal "Deprecated"]) else generate env cfg main out := by
  unfold resolve generate; rfl

/-- `registry resolve` is `registry generate`, and an error in the future mode. -/
theorem resolve_passes {env : Env} (hf : Fair env) (cfg : Config) (main : Option (Repo × List Msg)) (out : Output) (rendered : Bool) :
    (process env.future rendered (resolve env cfg main out).2).1 = 0 ↔ env.future = false ∧
      ∃ repo fetched v t, Complete cfg main repo fetched v t ∧ out.prepare = none ∧ (out.run t).2 = none ∧
        ((∀ m, ¬Finds env cfg repo fetched t true m) ∨
         (rendered = true ∧ ∀ m, Finds env cfg repo fetched t true m → Mild m)) := by
  rw [resolve_eq]
  cases h : env.future with
  | true =>
    rw [if_pos rfl]
    have := process_fatal true rendered "Deprecated" []
    simp [this]
  | false =>
    have hg := generate_passes hf cfg main out rendered
    have hm : ∀ m, ¬IsError false m ↔ Mild m := by
      intro m
      unfold IsError
      simp only [Bool.false_eq_true, false_or]
      exact ⟨fun h => Classical.byContradiction h, fun h h' => h' h⟩
    simp only [h, hm] at hg
    rw [if_neg (by decide), hg]
    simp only [true_and]

theorem printAll_zero {future rendered : Bool} {out : Output} {t : Val} :
    (process future rendered (printAll out t).2).1 = 0 ↔ out.prepare = none ∧ (out.run t).2 = none := by
  unfold printAll
  cases out.prepare with
  | some e => simp [process_fatal]
  | none =>
    dsimp only
    generalize out.run t = w
    obtain ⟨acts, e⟩ := w
    cases e with
    | some e => simp [process_fatal]
    | none => simp [process]

theorem bad_one {future rendered : Bool} {ms : List Msg} (h : bad future ms = true) : (process future rendered (.error ms)).1 = 1 := by
  unfold process; cases rendered <;> simp [h]

/-- The exit code of `registry stats`. -/
theorem stats_passes {env : Env} (hf : Fair env) (cfg : Config) (main : Option (Repo × List Msg)) (out : Output) (rendered : Bool) :
    (process env.future rendered (stats env cfg main out).2).1 = 0 ↔
      ∃ repo fetched v t, Complete (noPolicy cfg) main repo fetched v t ∧ out.prepare = none ∧ (out.run t).2 = none ∧
        ∀ m, Finds env (noPolicy cfg) repo fetched t false m → ¬IsError env.future m := by
  unfold stats
  rcases loadMain_cases hf (noPolicy cfg) main with ⟨x, h, hn⟩ | ⟨r, diag, repo, fetched, h, hc, hm, -⟩
  · rw [h]
    dsimp only
    rw [process_fatal]
    refine iff_of_false (by decide) ?_
    rintro ⟨repo, fetched, v, t, h, -⟩
    exact hn ⟨_, _, _, _, h⟩
  · rw [h]
    dsimp only
    have hiff : (∃ repo fetched v t, Complete (noPolicy cfg) main repo fetched v t ∧ out.prepare = none ∧ (out.run t).2 = none ∧
        ∀ m, Finds env (noPolicy cfg) repo fetched t false m → ¬IsError env.future m) ↔
        (out.prepare = none ∧ (out.run r.template).2 = none ∧ ∀ m ∈ diag, ¬IsError env.future m) := by
      simp only [hm]
      constructor
      · rintro ⟨repo', fetched', v, t, h1, h2⟩
        obtain ⟨rfl, rfl, rfl, rfl⟩ := complete_unique hc h1
        exact h2
      · intro h2; exact ⟨_, _, _, _, hc, h2⟩
    rw [hiff]
    cases hb : bad env.future diag with
    | true =>
      rw [if_pos rfl]
      dsimp only
      rw [bad_one hb]
      refine iff_of_false (by decide) ?_
      rintro ⟨-, -, h3⟩
      obtain ⟨m, hm, he⟩ := (bad_iff _ _).1 hb
      exact h3 m hm he
    | false =>
      rw [if_neg (by decide), printAll_zero]
      constructor
      · rintro ⟨h1, h2⟩; exact ⟨h1, h2, fun m hm => not_bad hb hm⟩
      · rintro ⟨h1, h2, -⟩; exact ⟨h1, h2⟩

/-- The exit code of `registry emit`. -/
theorem emit_passes {env : Env} (hf : Fair env) (cfg : Config) (main : Option (Repo × List Msg))
    (run : Val → List String × Option String) (rendered : Bool) :
    (process env.future rendered (emit env cfg main run).2).1 = 0 ↔
      ∃ repo fetched v t, Complete cfg main repo fetched v t ∧ (run t).2 = none ∧
        ∀ m, Finds env cfg repo fetched t false m → ¬IsError env.future m := by
  unfold emit
  rcases loadMain_cases hf cfg main with ⟨x, h, hn⟩ | ⟨r, diag, repo, fetched, h, hc, hm, -⟩
  · rw [h]
    dsimp only
    rw [process_fatal]
    refine iff_of_false (by decide) ?_
    rintro ⟨repo, fetched, v, t, h, -⟩
    exact hn ⟨_, _, _, _, h⟩
  · rw [h]
    dsimp only
    have hiff : (∃ repo fetched v t, Complete cfg main repo fetched v t ∧ (run t).2 = none ∧
        ∀ m, Finds env cfg repo fetched t false m → ¬IsError env.future m) ↔
        ((run r.template).2 = none ∧ ∀ m ∈ diag, ¬IsError env.future m) := by
      simp only [hm]
      constructor
      · rintro ⟨repo', fetched', v, t, h1, h2⟩
        obtain ⟨rfl, rfl, rfl, rfl⟩ := complete_unique hc h1
        exact h2
      · intro h2; exact ⟨_, _, _, _, hc, h2⟩
    rw [hiff]
    generalize run r.template = w
    obtain ⟨acts, e⟩ := w
    cases e with
    | some e => simp [process_fatal]
    | none =>
      dsimp only
      cases hb : bad env.future diag with
      | true =>
        rw [if_pos rfl, bad_one hb]
        refine iff_of_false (by decide) ?_
        rintro ⟨-, h3⟩
        obtain ⟨m, hm, he⟩ := (bad_iff _ _).1 hb
        exact h3 m hm he
      | false =>
        rw [if_neg (by decide)]
        exact iff_of_true rfl ⟨rfl, fun m hm => not_bad hb hm⟩

/-- The exit code of `registry live-check`: it also has to be 0 by the findings about the samples. -/
theorem live_passes {env : Env} (hf : Fair env) (cfg : Config) (main : Option (Repo × List Msg)) (prepare : Option String)
    (run : Val → List String × Except String Nat) (rendered : Bool) :
    (process env.future rendered (live env cfg main prepare run).2).1 = 0 ↔
      prepare = none ∧ ∃ repo fetched v t, Complete cfg main repo fetched v t ∧ (run t).2 = .ok 0 ∧
        ∀ m, Finds env cfg repo fetched t true m → ¬IsError env.future m := by
  unfold live
  cases prepare with
  | some e => simp [process_fatal]
  | none =>
    dsimp only
    rcases loadMain_cases hf cfg main with ⟨x, h, hn⟩ | ⟨r, diag, repo, fetched, h, hc, -, hm⟩
    · rw [h]
      dsimp only
      rw [process_fatal]
      refine iff_of_false (by decide) ?_
      rintro ⟨-, repo, fetched, v, t, h, -⟩
      exact hn ⟨_, _, _, _, h⟩
    · rw [h]
      dsimp only
      have hiff : (∃ repo fetched v t, Complete cfg main repo fetched v t ∧ (run t).2 = .ok 0 ∧
          ∀ m, Finds env cfg repo fetched t true m → ¬IsError env.future m) ↔
          ((run r.template).2 = .ok 0 ∧ ∀ m ∈ diag ++ r.afterPolicy env, ¬IsError env.future m) := by
        simp only [hm]
        constructor
        · rintro ⟨repo', fetched', v, t, h1, h2⟩
          obtain ⟨rfl, rfl, rfl, rfl⟩ := complete_unique hc h1
          exact h2
        · intro h2; exact ⟨_, _, _, _, hc, h2⟩
      rw [hiff]
      generalize run r.template = w
      obtain ⟨acts, e⟩ := w
      cases e with
      | error e => simp [process_fatal]
      | ok c =>
        dsimp only
        generalize diag ++ r.afterPolicy env = ms
        cases hb : bad env.future ms with
        | true =>
          rw [if_pos rfl, bad_one hb]
          refine iff_of_false (by decide) ?_
          rintro ⟨-, -, h3⟩
          obtain ⟨m, hm, he⟩ := (bad_iff _ _).1 hb
          exact h3 m hm he
        | false =>
          rw [if_neg (by decide)]
          simp only [process, Except.ok.injEq, true_and]
          exact ⟨fun h => ⟨h, fun m hm => not_bad hb hm⟩, fun h => h.1⟩

/-- The exit code of `registry search`: it needs a registry of version 1, and a text or a terminal. -/
theorem search_passes {env : Env} (hf : Fair env) (cfg : Config) (main : Option (Repo × List Msg)) (pattern terminal : Bool)
    (ui : Option String) (rendered : Bool) :
    (process env.future rendered (search env cfg main pattern terminal ui).2).1 = 0 ↔
      ∃ repo fetched t, Complete (noPolicy cfg) main repo fetched false t ∧ (pattern = true ∨ (terminal = true ∧ ui = none)) ∧
        ((∀ m, ¬Finds env (noPolicy cfg) repo fetched t false m) ∨
         (rendered = true ∧ ∀ m, Finds env (noPolicy cfg) repo fetched t false m → ¬IsError env.future m)) := by
  unfold search
  rcases loadMain_cases hf (noPolicy cfg) main with ⟨x, h, hn⟩ | ⟨r, diag, repo, fetched, h, hc, hm, -⟩
  · rw [h]
    dsimp only
    rw [process_fatal]
    refine iff_of_false (by decide) ?_
    rintro ⟨repo, fetched, t, h, -⟩
    exact hn ⟨_, _, _, _, h⟩
  · rw [h]
    dsimp only
    have hiff : (∃ repo fetched t, Complete (noPolicy cfg) main repo fetched false t ∧ (pattern = true ∨ (terminal = true ∧ ui = none)) ∧
        ((∀ m, ¬Finds env (noPolicy cfg) repo fetched t false m) ∨
         (rendered = true ∧ ∀ m, Finds env (noPolicy cfg) repo fetched t false m → ¬IsError env.future m))) ↔
        (r.isV2 = false ∧ (pattern = true ∨ (terminal = true ∧ ui = none)) ∧
        ((∀ m, m ∉ diag) ∨ (rendered = true ∧ ∀ m ∈ diag, ¬IsError env.future m))) := by
      simp only [hm]
      constructor
      · rintro ⟨repo', fetched', t, h1, h2⟩
        obtain ⟨rfl, rfl, hv, rfl⟩ := complete_unique hc h1
        exact ⟨hv, h2⟩
      · rintro ⟨hv, h2⟩
        rw [hv] at hc
        exact ⟨_, _, _, hc, h2⟩
    rw [hiff]
    have hend : (process env.future rendered (if diag ≠ [] then .error diag else .ok ⟨0, []⟩)).1 = 0 ↔
        ((∀ m, m ∉ diag) ∨ (rendered = true ∧ ∀ m ∈ diag, ¬IsError env.future m)) := by
      by_cases hne : diag = []
      · subst hne; simp [process]
      · rw [if_pos hne]
        have hex := List.exists_mem_of_ne_nil _ hne
        constructor
        · intro hz; exact .inr (process_error_zero hz)
        · rintro (h0 | ⟨rfl, h0⟩)
          · obtain ⟨m, hm⟩ := hex
            exact absurd hm (h0 m)
          · unfold process
            have : bad env.future diag = false := by
              cases hb : bad env.future diag with
              | false => rfl
              | true =>
                obtain ⟨m, hm, he⟩ := (bad_iff _ _).1 hb
                exact absurd he (h0 m hm)
            simp [this]
    cases r.isV2 with
    | true => simp [process_fatal]
    | false =>
      rw [if_neg (by decide)]
      cases pattern with
      | true => rw [if_pos rfl]; dsimp only; rw [hend]; simp
      | false =>
        rw [if_neg (by decide)]
        cases terminal with
        | false => simp [process]
        | true =>
          rw [if_pos rfl]
          cases ui with
          | some e => simp [process_fatal]
          | none => dsimp only; rw [hend]; simp

end Verif.Commands
